import Verif.Lemmas.Static

namespace Nda
open Spec

theorem isStatic_eq_false {x : Int} : isStatic x = false ↔ x = -9 := by
  rw [← Bool.not_eq_true, isStatic_iff]; simp

theorem values_append (a b : List SDim) : values (a ++ b) = values a ++ values b := List.map_append

/-- What happens to one dim. -/
def compactOne (cur : Int) (d : SDim) : SDim :=
  let t : DimT := ⟨d.ty.min, d.ty.extent, if isStatic d.ty.stride then d.ty.stride else cur⟩
  ⟨t, t.make d.val.min d.val.extent t.defaultStride⟩

theorem makeCompactDimsFrom_cons (cur : Int) (d : SDim) (ds : List SDim) :
    makeCompactDimsFrom cur (d :: ds) =
      compactOne cur d :: makeCompactDimsFrom (staticMul cur d.ty.extent) ds := rfl

theorem makeCompactDimsFrom_length (cur : Int) (l : List SDim) :
    (makeCompactDimsFrom cur l).length = l.length := by
  induction l generalizing cur with
  | nil => rfl
  | cons d l ih => simp [makeCompactDimsFrom_cons, ih]

theorem compactOne_fits (cur : Int) (d : SDim) : Fits (compactOne cur d).ty (compactOne cur d).val :=
  make_fits _ _ _ _

theorem compactOne_val {cur : Int} {d : SDim} (h : Fits d.ty d.val) :
    (compactOne cur d).val =
      ⟨d.val.min, d.val.extent,
        if isStatic d.ty.stride then d.ty.stride else if isStatic cur then cur else unresolved⟩ := by
  unfold compactOne
  simp only
  rw [make_of_fits]
  · congr 1
    unfold DimT.defaultStride
    simp only
    by_cases h1 : isStatic d.ty.stride = true <;> by_cases h2 : isStatic cur = true <;> simp [h1, h2]
  · exact ⟨h.1, h.2.1, defaultStride_describes _⟩

theorem makeCompactDimsFrom_forall₂ (cur : Int) (l : List SDim) (h : ∀ d ∈ l, Fits d.ty d.val) :
    List.Forall₂ (fun d r : SDim => r.ty.min = d.ty.min ∧ r.ty.extent = d.ty.extent ∧
      r.val.min = d.val.min ∧ r.val.extent = d.val.extent ∧
      (d.ty.stride ≠ -9 → r.ty.stride = d.ty.stride) ∧ Fits r.ty r.val)
      l (makeCompactDimsFrom cur l) := by
  induction l generalizing cur with
  | nil => exact List.Forall₂.nil
  | cons d l ih =>
    rw [makeCompactDimsFrom_cons]
    refine List.Forall₂.cons ⟨rfl, rfl, ?_, ?_, ?_, compactOne_fits _ _⟩
      (ih _ (fun x hx => h x (List.mem_cons_of_mem _ hx)))
    · rw [compactOne_val (h d (by simp))]
    · rw [compactOne_val (h d (by simp))]
    · intro hs
      show (if isStatic d.ty.stride = true then d.ty.stride else cur) = _
      rw [if_pos ((isStatic_iff _).2 hs)]

/-- Writing the resolved strides back through `set_stride`. -/
def writeBack (c : List SDim) (r : List Dim) : List SDim :=
  List.zipWith (fun d x => ⟨d.ty, d.ty.setStride d.val x.stride⟩) c r

theorem makeCompact_eq (l : List SDim) :
    makeCompact l = writeBack (makeCompactDims l) (values (makeCompactDims l)).resolve := rfl

theorem writeBack_forall₂ {c : List SDim} {r : List Dim} (hl : r.length = c.length)
    (h : ∀ d ∈ c, Fits d.ty d.val) :
    List.Forall₂ (fun d r : SDim => r.ty = d.ty ∧ r.val.min = d.val.min ∧
      r.val.extent = d.val.extent ∧ Fits r.ty r.val) c (writeBack c r) := by
  induction c generalizing r with
  | nil => simp [writeBack]
  | cons d c ih =>
    cases r with
    | nil => simp at hl
    | cons x r =>
      have hd := h d (by simp)
      refine List.Forall₂.cons ?_ (ih (by simpa using hl) (fun y hy => h y (by simp [hy])))
      unfold DimT.setStride
      dsimp only
      split
      · exact ⟨rfl, rfl, rfl, hd⟩
      · rename_i hs
        rw [isStatic_iff] at hs
        exact ⟨rfl, rfl, rfl, hd.1, hd.2.1, fun hh => absurd hh hs⟩

/-- If resolving kept the strides the types know, writing back is resolving. -/
theorem values_writeBack {c : List SDim} {r : List Dim} (hr : RefinesStrides (values c) r)
    (h : ∀ d ∈ c, Fits d.ty d.val) (hn : ∀ d ∈ c, d.ty.stride ≠ -9223372036854775808) :
    values (writeBack c r) = r := by
  induction c generalizing r with
  | nil =>
    cases hr
    rfl
  | cons d c ih =>
    cases hr with
    | cons h1 h2 =>
      rename_i x r
      have ih' := ih h2 (fun y hy => h y (by simp [hy])) (fun y hy => hn y (by simp [hy]))
      show (d.ty.setStride d.val x.stride) :: values (writeBack c r) = x :: r
      rw [ih']
      congr 1
      unfold DimT.setStride
      obtain ⟨m1, m2, m3⟩ := h1
      split
      · rename_i hs
        have hds := (h d (by simp)).2.2 ((isStatic_iff _).1 hs)
        have := m3 (by unfold Known; rw [hds]; exact hn d (by simp))
        cases x; cases hdv : d.val; simp_all
      · cases x; cases hdv : d.val; simp_all

theorem values_makeCompact {l : List SDim} (h : ∀ d ∈ l, Fits d.ty d.val)
    (hn : ∀ d ∈ makeCompactDims l, d.ty.stride ≠ -9223372036854775808) :
    values (makeCompact l) = (values (makeCompactDims l)).resolve := by
  rw [makeCompact_eq]
  refine values_writeBack (resolve_refines _) ?_ hn
  intro d hd
  have := makeCompactDimsFrom_forall₂ (makeCompactStart l) l h
  have key : ∀ {a b : List SDim} {R : SDim → SDim → Prop}, List.Forall₂ R a b →
      (∀ x y, R x y → Fits y.ty y.val) → ∀ y ∈ b, Fits y.ty y.val := by
    intro a b R hab hR
    induction hab with
    | nil => intro y hy; simp at hy
    | cons h1 _ ih =>
      intro y hy
      rcases List.mem_cons.1 hy with rfl | hy
      · exact hR _ _ h1
      · exact ih y hy
  exact key this (fun x y hxy => hxy.2.2.2.2.2) d hd

/-! ### All strides dynamic -/

theorem staticMul_dynamic (x : Int) : staticMul (-9) x = -9 := by
  unfold staticMul; rw [if_pos ((isDynamic2_iff _ _).2 (Or.inl rfl))]; rfl

/-- The current stride after a list of dims. -/
def curAfter (cur : Int) (l : List SDim) : Int := l.foldl (fun c d => staticMul c d.ty.extent) cur

theorem curAfter_dynamic (l : List SDim) : curAfter (-9) l = -9 := by
  unfold curAfter
  induction l with
  | nil => rfl
  | cons d l ih => rw [List.foldl_cons, staticMul_dynamic]; exact ih

theorem curAfter_cases (cur : Int) (l : List SDim) (P : Int) (hcur : cur = -9 ∨ cur = P)
    (h : ∀ d ∈ l, Fits d.ty d.val) :
    curAfter cur l = -9 ∨ curAfter cur l = P * ((values l).map fun d : Dim => d.extent).prod := by
  induction l generalizing cur P with
  | nil => simpa [curAfter, values] using hcur
  | cons d l ih =>
    rcases hcur with rfl | rfl
    · exact Or.inl (curAfter_dynamic _)
    · have hd := h d (by simp)
      have := ih (staticMul cur d.ty.extent) (cur * d.val.extent) (by
        by_cases h9 : staticMul cur d.ty.extent = -9
        · exact Or.inl h9
        · exact Or.inr (staticMul_describes (describes_self cur) hd.2.1 h9).symm)
        (fun y hy => h y (by simp [hy]))
      unfold curAfter at this ⊢
      rw [List.foldl_cons]
      simp only [values, List.map_cons, List.prod_cons]
      rw [← mul_assoc]
      exact this

theorem makeCompactDimsFrom_append (cur : Int) (a b : List SDim) :
    makeCompactDimsFrom cur (a ++ b) =
      makeCompactDimsFrom cur a ++ makeCompactDimsFrom (curAfter cur a) b := by
  induction a generalizing cur with
  | nil => rfl
  | cons d a ih =>
    rw [List.cons_append, makeCompactDimsFrom_cons, ih, makeCompactDimsFrom_cons]
    rfl

/-- With no static strides the values are prefix products up to some point and placeholders from
there on. -/
theorem makeCompactDimsFrom_values (cur : Int) (l : List SDim) (P : Int) (hP : 1 ≤ P)
    (hcur : cur = -9 ∨ cur = P) (h : ∀ d ∈ l, Fits d.ty d.val ∧ d.ty.stride = -9 ∧ 0 < d.val.extent) :
    ∃ a b, l = a ++ b ∧ values (makeCompactDimsFrom cur l) =
      prodStrides P (values a) ++ Shape.bounds (values b) ∧ (cur = -9 → a = []) ∧
      (b ≠ [] → curAfter cur l = -9) := by
  induction l generalizing cur P with
  | nil => exact ⟨[], [], rfl, rfl, fun _ => rfl, fun h => absurd rfl h⟩
  | cons d l ih =>
    obtain ⟨hd, hs, he⟩ := h d (by simp)
    have hl : ∀ x ∈ l, _ := fun x hx => h x (List.mem_cons_of_mem d hx)
    rw [makeCompactDimsFrom_cons]
    rcases hcur with rfl | rfl
    · -- already dynamic
      rw [staticMul_dynamic]
      have hdyn : ∀ l : List SDim, (∀ d ∈ l, Fits d.ty d.val ∧ d.ty.stride = -9 ∧ 0 < d.val.extent) →
          values (makeCompactDimsFrom (-9) l) = Shape.bounds (values l) := by
        intro l hl
        induction l with
        | nil => rfl
        | cons x l ih2 =>
          obtain ⟨hx, hxs, _⟩ := hl x (by simp)
          rw [makeCompactDimsFrom_cons, staticMul_dynamic]
          show (compactOne (-9) x).val :: values _ = _
          rw [ih2 (fun y hy => hl y (by simp [hy])), compactOne_val hx, hxs]
          rfl
      refine ⟨[], d :: l, rfl, ?_, fun _ => rfl, fun _ => curAfter_dynamic _⟩
      have := hdyn (d :: l) h
      rw [makeCompactDimsFrom_cons, staticMul_dynamic] at this
      exact this
    · have hcs : isStatic cur = true := (isStatic_iff _).2 (by omega)
      have hPe : 1 ≤ cur * d.val.extent := by nlinarith
      have hnext : staticMul cur d.ty.extent = -9 ∨ staticMul cur d.ty.extent = cur * d.val.extent := by
        have := staticMul_describes (describes_self cur) hd.2.1
        by_cases h9 : staticMul cur d.ty.extent = -9
        · exact Or.inl h9
        · exact Or.inr (this h9).symm
      obtain ⟨a, b, hab, hv, -, hb⟩ := ih _ (cur * d.val.extent) hPe hnext hl
      refine ⟨d :: a, b, by rw [hab]; rfl, ?_, fun h => by omega, hb⟩
      show (compactOne cur d).val :: values _ = _
      rw [hv, compactOne_val hd, hs, hcs]
      rfl

theorem bounds_not_known {s : Shape} {d : Dim} (h : d ∈ Shape.bounds s) : ¬ Known d := by
  obtain ⟨x, _, rfl⟩ := List.mem_map.1 h
  simp [Known, unresolved]

theorem prodStrides_bounds (c : Int) (s : Shape) : prodStrides c (Shape.bounds s) = prodStrides c s := by
  unfold Shape.bounds
  induction s generalizing c with
  | nil => rfl
  | cons d s ih => simp [prodStrides, ih]

theorem bounds_pos {s : Shape} (h : Pos s) : Pos (Shape.bounds s) := by
  intro d hd
  obtain ⟨x, hx, rfl⟩ := List.mem_map.1 hd
  exact h x hx

theorem bounds_prod (s : Shape) :
    (List.map (fun d : Dim => d.extent) (Shape.bounds s)).prod = (List.map (fun d : Dim => d.extent) s).prod := by
  unfold Shape.bounds
  rw [List.map_map]
  rfl

/-- Known prefix products followed by placeholders resolve to prefix products. -/
theorem resolve_prefix {a b : List Dim} (hpos : Pos (a ++ b)) (hb : ∀ x ∈ b, ¬ Known x)
    (hfit : ((a ++ b).map fun d => d.extent).prod ≤ indexMax) :
    Shape.resolve (prodStrides 1 a ++ b) = prodStrides 1 (a ++ b) := by
  have hk : ∀ d ∈ prodStrides 1 a, Known d := fun d hd =>
    prodStrides_known (le_refl 1) (fun x hx => hpos x (by simp [hx])) hd
  have hskip : ∀ (k done : List Dim), (∀ d ∈ k, Known d) →
      resolveLoop done (k ++ b) = resolveLoop (done ++ k) b := by
    intro k
    induction k with
    | nil => intro done _; simp
    | cons x k ih =>
      intro done hk
      rw [List.cons_append, resolveLoop_cons, resolveDim_known _ (hk x (by simp)),
        ih _ (fun y hy => hk y (by simp [hy]))]
      simp
  have := hskip _ [] hk
  rw [List.nil_append] at this
  unfold Shape.resolve
  rw [this]
  exact resolveLoop_prod b a hpos hb hfit

theorem resolve_bounds {s : Shape} (hpos : Pos s)
    (hfit : (List.map (fun d : Dim => d.extent) s).prod ≤ indexMax) :
    (Shape.bounds s).resolve = prodStrides 1 s := by
  rw [resolve_prod (bounds_pos hpos) (fun x hx => bounds_not_known hx) (by rw [bounds_prod]; exact hfit),
    prodStrides_bounds]

theorem makeCompactStart_dynamic {l : List SDim} (h : ∀ d ∈ l, d.ty.stride = -9) :
    makeCompactStart l = 1 := by
  unfold makeCompactStart
  simp only
  rw [if_neg, if_pos]
  · rw [all_iff]
    intro b hb
    obtain ⟨d, hd, rfl⟩ := List.mem_map.1 hb
    rw [h d hd]; rfl
  · rw [any_iff]
    rintro ⟨b, hb, hb2⟩
    obtain ⟨d, hd, rfl⟩ := List.mem_map.1 hb
    rw [h d hd] at hb2
    simp at hb2

theorem makeCompactDimsFrom_stride (cur : Int) (l : List SDim) (hc : cur = -9 ∨ 1 ≤ cur)
    (h : ∀ d ∈ l, Fits d.ty d.val ∧ d.ty.stride ≠ -9223372036854775808 ∧ 0 < d.val.extent) :
    ∀ d ∈ makeCompactDimsFrom cur l, d.ty.stride ≠ -9223372036854775808 := by
  induction l generalizing cur with
  | nil => intro d hd; simp [makeCompactDimsFrom] at hd
  | cons x l ih =>
    intro d hd
    obtain ⟨hx, hxs, hxe⟩ := h x (by simp)
    rw [makeCompactDimsFrom_cons] at hd
    rcases List.mem_cons.1 hd with rfl | hd
    · show (if isStatic x.ty.stride = true then x.ty.stride else cur) ≠ _
      split
      · exact hxs
      · omega
    · refine ih _ ?_ (fun y hy => h y (by simp [hy])) d hd
      rcases hc with rfl | hc
      · rw [staticMul_dynamic]; exact Or.inl rfl
      · have := staticMul_describes (describes_self cur) hx.2.1
        by_cases h9 : staticMul cur x.ty.extent = -9
        · exact Or.inl h9
        · right; rw [← this h9]; nlinarith

theorem makeCompact_dynamic {l : List SDim} (h : ∀ d ∈ l, Fits d.ty d.val)
    (hs : ∀ d ∈ l, d.ty.stride = -9) (hpos : Pos (values l))
    (hfit : (List.map (fun d : Dim => d.extent) (values l)).prod ≤ indexMax) :
    values (makeCompact l) = prodStrides 1 (values l) := by
  have hpos' : ∀ d ∈ l, 0 < d.val.extent := fun d hd => hpos _ (List.mem_map_of_mem hd)
  have h1 := makeCompactStart_dynamic hs
  rw [values_makeCompact h]
  · unfold makeCompactDims
    rw [h1]
    obtain ⟨a, b, hab, hv, -⟩ := makeCompactDimsFrom_values 1 l 1 (le_refl 1) (Or.inr rfl)
      (fun d hd => ⟨h d hd, hs d hd, hpos' d hd⟩)
    rw [hv]
    rw [hab, values_append] at hpos hfit ⊢
    rw [resolve_prefix (b := Shape.bounds (values b))]
    · rw [prodStrides_append, prodStrides_append, prodStrides_bounds]
    · intro x hx
      rcases List.mem_append.1 hx with hx | hx
      · exact hpos x (List.mem_append_left _ hx)
      · exact bounds_pos (fun y hy => hpos y (List.mem_append_right _ hy)) x hx
    · exact fun x hx => bounds_not_known hx
    · rw [List.map_append, List.prod_append] at hfit ⊢
      rw [bounds_prod]
      exact hfit
  · unfold makeCompactDims
    rw [h1]
    exact makeCompactDimsFrom_stride 1 l (Or.inr (le_refl 1))
      (fun d hd => ⟨h d hd, by rw [hs d hd]; decide, hpos' d hd⟩)


/-! ### One dense dim, the other strides dynamic -/

theorem variadicMax_cons (a : Int) (l : List Int) : variadicMax (a :: l) = max a (variadicMax l) := by
  rw [variadicMax, imax_eq]

theorem variadicMax_append (a b : List Int) :
    variadicMax (a ++ b) = max (variadicMax a) (variadicMax b) := by
  induction a with
  | nil =>
    have : ∀ b : List Int, unresolved ≤ variadicMax b := by
      intro b
      induction b with
      | nil => exact le_refl _
      | cons x b ih => rw [variadicMax_cons]; exact le_trans ih (le_max_right _ _)
    exact (max_eq_right (this b)).symm
  | cons x a ih => rw [List.cons_append, variadicMax_cons, variadicMax_cons, ih, max_assoc]

theorem variadicMax_le {l : List Int} {m : Int} (h : ∀ x ∈ l, x ≤ m) (hm : unresolved ≤ m) :
    variadicMax l ≤ m := by
  induction l with
  | nil => exact hm
  | cons x l ih =>
    rw [variadicMax_cons]
    exact max_le (h x (by simp)) (ih (fun y hy => h y (by simp [hy])))

theorem makeCompactStart_dense {pre post : List SDim} {dd : SDim}
    (hdd : dd.ty.stride = 1) (hE : 0 < dd.val.extent) (hf : Fits dd.ty dd.val)
    (hpre : ∀ d ∈ pre, d.ty.stride = -9) (hpost : ∀ d ∈ post, d.ty.stride = -9) :
    makeCompactStart (pre ++ dd :: post) = -9 ∨
      makeCompactStart (pre ++ dd :: post) = dd.val.extent := by
  have hall : ∀ d ∈ pre ++ dd :: post, d.ty.stride = -9 ∨ d = dd := by
    intro d hd
    rcases List.mem_append.1 hd with hd | hd
    · exact Or.inl (hpre d hd)
    · rcases List.mem_cons.1 hd with rfl | hd
      · exact Or.inr rfl
      · exact Or.inl (hpost d hd)
  unfold makeCompactStart
  simp only
  rw [if_neg, if_neg]
  · have hle : ∀ l : List SDim, (∀ d ∈ l, d.ty.stride = -9) →
        variadicMax (l.map fun d => if d.ty.stride == 1 then staticAbs d.ty.extent else dynamic) ≤ -9 := by
      intro l hl
      apply variadicMax_le
      · intro x hx
        obtain ⟨d, hd, rfl⟩ := List.mem_map.1 hx
        rw [hl d hd, if_neg (by decide)]; decide
      · decide
    rw [List.map_append, List.map_cons, variadicMax_append, variadicMax_cons, hdd]
    have h1 := hle pre hpre
    have h2 := hle post hpost
    simp only [beq_self_eq_true, if_true]
    have h3 := staticAbs_describes hf.2.1
    rw [abs_of_pos hE] at h3
    by_cases h9 : staticAbs dd.ty.extent = -9
    · left; rw [h9]; omega
    · right; rw [← h3 h9]; omega
  · rw [all_iff]
    intro hc
    have := hc _ (List.mem_map_of_mem (f := fun d : SDim => isDynamic d.ty.stride)
      (show dd ∈ pre ++ dd :: post by simp))
    rw [isDynamic_iff, hdd] at this
    omega
  · rw [any_iff]
    rintro ⟨b, hb, hb2⟩
    obtain ⟨d, hd, rfl⟩ := List.mem_map.1 hb
    rcases hall d hd with h | rfl
    · rw [h] at hb2; simp at hb2
    · rw [hdd] at hb2; simp at hb2

theorem makeCompactDims_dense_values {pre post : List SDim} {dd : SDim}
    (hdd : dd.ty.stride = 1)
    (hf : ∀ d ∈ pre ++ dd :: post, Fits d.ty d.val ∧ 0 < d.val.extent)
    (hpre : ∀ d ∈ pre, d.ty.stride = -9) (hpost : ∀ d ∈ post, d.ty.stride = -9) :
    ∃ a1 b1 a2 b2, pre = a1 ++ b1 ∧ post = a2 ++ b2 ∧ (b1 ≠ [] → a2 = []) ∧
      values (makeCompactDims (pre ++ dd :: post)) =
        (prodStrides dd.val.extent (values a1) ++ Shape.bounds (values b1)) ++
        ⟨dd.val.min, dd.val.extent, 1⟩ ::
        (prodStrides (dd.val.extent * ((values pre).map fun d : Dim => d.extent).prod * dd.val.extent)
          (values a2) ++ Shape.bounds (values b2)) := by
  have hddf := hf dd (by simp)
  have hE := hddf.2
  have hstart := makeCompactStart_dense hdd hE hddf.1 hpre hpost
  unfold makeCompactDims
  generalize makeCompactStart (pre ++ dd :: post) = cur at hstart
  have hpref : ∀ d ∈ pre, Fits d.ty d.val ∧ d.ty.stride = -9 ∧ 0 < d.val.extent := fun d hd =>
    ⟨(hf d (by simp [hd])).1, hpre d hd, (hf d (by simp [hd])).2⟩
  have hpostf : ∀ d ∈ post, Fits d.ty d.val ∧ d.ty.stride = -9 ∧ 0 < d.val.extent := fun d hd =>
    ⟨(hf d (by simp [hd])).1, hpost d hd, (hf d (by simp [hd])).2⟩
  obtain ⟨a1, b1, h1, hv1, -, hb1⟩ := makeCompactDimsFrom_values cur pre dd.val.extent hE hstart hpref
  have hprepos : Pos (values pre) := by
    intro d hd
    obtain ⟨x, hx, rfl⟩ := List.mem_map.1 hd
    exact (hpref x hx).2.2
  have hpp := one_le_prod_extent hprepos
  have hmid := curAfter_cases cur pre dd.val.extent hstart (fun d hd => (hpref d hd).1)
  have hnext : staticMul (curAfter cur pre) dd.ty.extent = -9 ∨
      staticMul (curAfter cur pre) dd.ty.extent =
        dd.val.extent * ((values pre).map fun d : Dim => d.extent).prod * dd.val.extent := by
    by_cases h9 : staticMul (curAfter cur pre) dd.ty.extent = -9
    · exact Or.inl h9
    · rcases hmid with hm | hm
      · rw [hm, staticMul_dynamic] at h9; exact absurd rfl h9
      · right
        rw [← staticMul_describes (describes_self _) hddf.1.2.1 h9, hm]
  have hC : 1 ≤ dd.val.extent * ((values pre).map fun d : Dim => d.extent).prod * dd.val.extent := by
    have : 1 ≤ dd.val.extent * ((values pre).map fun d : Dim => d.extent).prod := by nlinarith
    nlinarith
  obtain ⟨a2, b2, h2, hv2, ha2, -⟩ := makeCompactDimsFrom_values _ post _ hC hnext hpostf
  refine ⟨a1, b1, a2, b2, h1, h2, ?_, ?_⟩
  · intro hb
    apply ha2
    rw [hb1 hb, staticMul_dynamic]
  · rw [makeCompactDimsFrom_append, values_append, hv1, makeCompactDimsFrom_cons]
    show _ ++ (compactOne _ dd).val :: values _ = _
    rw [hv2, compactOne_val hddf.1, hdd]
    rfl


theorem prodStrides_pairwise {c : Int} (hc : 1 ≤ c) {a : List Dim} (ha : Pos a) :
    (prodStrides c a).Pairwise Nested := by
  induction a generalizing c with
  | nil => exact List.Pairwise.nil
  | cons x a ih =>
    obtain ⟨hx, ha⟩ := pos_cons.1 ha
    have hcx : 1 ≤ c * x.extent := by nlinarith
    refine List.Pairwise.cons ?_ (ih hcx ha)
    intro y hy
    have := (prodStrides_mem hcx ha hy).1
    left
    unfold span
    simp only
    rw [abs_of_pos (show 0 < c by omega), abs_of_pos (by omega), mul_comm]
    exact this

theorem filter_known {l : List Dim} (h : ∀ d ∈ l, Known d) :
    l.filter (fun d => d.stride == -9223372036854775808) = [] := by
  rw [List.filter_eq_nil_iff]
  intro d hd
  have := h d hd
  simpa [Known] using this

theorem filter_bounds (s : Shape) :
    (Shape.bounds s).filter (fun d => d.stride == -9223372036854775808) = Shape.bounds s := by
  rw [List.filter_eq_self]
  intro d hd
  have := bounds_not_known hd
  simpa [Known] using this

theorem prod_max_of_pos {s : List Dim} (h : Pos s) :
    (s.map fun d => max 1 d.extent).prod = (s.map fun d => d.extent).prod := by
  congr 1
  apply List.map_congr_left
  intro d hd
  have := h d hd
  omega

theorem prodStrides_extents (c : Int) (l : List Dim) :
    (prodStrides c l).map (fun d => d.extent) = l.map fun d => d.extent := by
  induction l generalizing c with
  | nil => rfl
  | cons x l ih => simp [prodStrides, ih]

theorem dense_resInv {a1 b1 a2 b2 : List Dim} {m E : Int} (hE : 0 < E)
    (h1 : Pos a1) (h2 : Pos b1) (h3 : Pos a2) (h4 : Pos b2) (hb : b1 ≠ [] → a2 = [])
    (hfit : E * (((a1 ++ b1).map fun d : Dim => d.extent).prod * (E *
      ((a2 ++ b2).map fun d : Dim => d.extent).prod)) < 9223372036854775807) :
    ResInv ((prodStrides E a1 ++ Shape.bounds b1) ++ ⟨m, E, 1⟩ ::
      (prodStrides (E * ((a1 ++ b1).map fun d : Dim => d.extent).prod * E) a2 ++ Shape.bounds b2)) := by
  have p1 := one_le_prod_extent h1
  have p2 := one_le_prod_extent h2
  have p3 := one_le_prod_extent h3
  have p4 := one_le_prod_extent h4
  have p12 : 1 ≤ ((a1 ++ b1).map fun d : Dim => d.extent).prod := by
    rw [List.map_append, List.prod_append]; nlinarith
  set Q := ((a1 ++ b1).map fun d : Dim => d.extent).prod with hQ
  have hEQ : E ≤ E * Q := by nlinarith
  have hEQE : 1 ≤ E * Q * E := by nlinarith
  have k1 : ∀ d ∈ prodStrides E a1, Known d := fun d hd => prodStrides_known hE h1 hd
  have k2 : ∀ d ∈ prodStrides (E * Q * E) a2, Known d := fun d hd => prodStrides_known hEQE h3 hd
  have m1 : ∀ d ∈ prodStrides E a1, E ≤ d.stride ∧ 1 ≤ d.extent ∧ span d ≤ E * Q := by
    intro d hd
    obtain ⟨x, y, z⟩ := prodStrides_mem hE h1 hd
    refine ⟨x, y, le_trans z ?_⟩
    rw [hQ, List.map_append, List.prod_append]
    have : (a1.map fun d : Dim => d.extent).prod * 1 ≤
      (a1.map fun d : Dim => d.extent).prod * (b1.map fun d : Dim => d.extent).prod :=
      mul_le_mul_of_nonneg_left p2 (by omega)
    nlinarith
  have m2 : ∀ d ∈ prodStrides (E * Q * E) a2, E * Q ≤ d.stride ∧ 1 ≤ d.extent ∧
      span d ≤ E * Q * E * (a2.map fun d : Dim => d.extent).prod := by
    intro d hd
    obtain ⟨x, y, z⟩ := prodStrides_mem hEQE h3 hd
    exact ⟨le_trans (by nlinarith) x, y, z⟩
  refine ⟨?_, ?_, ?_⟩
  · -- pairwise
    have hunk : ∀ {x : Dim} {s : Shape}, x ∈ Shape.bounds s → ∀ y, KNested x y := fun hx y hk _ =>
      absurd hk (bounds_not_known hx)
    have hunk' : ∀ {x : Dim} {s : Shape}, x ∈ Shape.bounds s → ∀ y, KNested y x := fun hx y _ hk =>
      absurd hk (bounds_not_known hx)
    have hbb : ∀ s : Shape, List.Pairwise KNested (Shape.bounds s) := fun s =>
      List.pairwise_of_forall_mem_list (fun x hx y _ => hunk hx y)
    refine List.pairwise_append.2 ⟨List.pairwise_append.2 ⟨?_, hbb _, ?_⟩,
      List.Pairwise.cons ?_ (List.pairwise_append.2 ⟨?_, hbb _, ?_⟩), ?_⟩
    · exact (prodStrides_pairwise hE h1).imp (fun h _ _ => h)
    · intro x _ y hy; exact hunk' hy x
    · intro y hy
      rcases List.mem_append.1 hy with hy | hy
      · intro _ _
        left
        have := (m2 y hy).1
        unfold span
        simp only [abs_one, mul_one]
        rw [abs_of_pos (by omega)]
        omega
      · exact hunk' hy _
    · exact (prodStrides_pairwise hEQE h3).imp (fun h _ _ => h)
    · intro x _ y hy; exact hunk' hy x
    · intro x hx y hy
      rcases List.mem_append.1 hx with hx | hx
      · rcases List.mem_cons.1 hy with rfl | hy
        · intro _ _
          right
          have := (m1 x hx).1
          unfold span
          simp only [abs_one, mul_one]
          rw [abs_of_pos (by omega)]
          exact this
        · rcases List.mem_append.1 hy with hy | hy
          · intro _ _
            left
            have e1 := (m1 x hx).2.2
            have e2 := (m2 y hy).1
            rw [abs_of_pos (by omega)]
            omega
          · exact hunk' hy x
      · exact hunk hx y
  · intro d hd hk
    rcases List.mem_append.1 hd with hd | hd
    · rcases List.mem_append.1 hd with hd | hd
      · intro _; have := (m1 d hd).1; omega
      · exact absurd hk (bounds_not_known hd)
    · rcases List.mem_cons.1 hd with rfl | hd
      · intro _; simp
      · rcases List.mem_append.1 hd with hd | hd
        · intro _; have := (m2 d hd).1; omega
        · exact absurd hk (bounds_not_known hd)
  · -- room
    have hkd : Known (⟨m, E, 1⟩ : Dim) := by simp [Known]
    have hfil : ((prodStrides E a1 ++ Shape.bounds b1) ++ (⟨m, E, 1⟩ : Dim) ::
      (prodStrides (E * Q * E) a2 ++ Shape.bounds b2)).filter
        (fun d => d.stride == -9223372036854775808) = Shape.bounds b1 ++ Shape.bounds b2 := by
      rw [List.filter_append, List.filter_append, filter_known k1, filter_bounds, List.nil_append,
        List.filter_cons_of_neg (by simp), List.filter_append, filter_known k2, filter_bounds,
        List.nil_append]
    have hpr : ((Shape.bounds b1 ++ Shape.bounds b2).map fun d : Dim => max 1 d.extent).prod =
        (b1.map fun d : Dim => d.extent).prod * (b2.map fun d : Dim => d.extent).prod := by
      rw [List.map_append, List.prod_append, prod_max_of_pos (bounds_pos h2),
        prod_max_of_pos (bounds_pos h4)]
      exact congrArg₂ _ (bounds_prod b1) (bounds_prod b2)
    unfold FitsIndex
    simp only [hfil, hpr]
    rw [List.map_append, List.prod_append] at hfit
    by_cases hbe : b1 = []
    · subst hbe
      refine ⟨E * Q * E * (a2.map fun d : Dim => d.extent).prod, by nlinarith, ?_, ?_⟩
      · intro d hd hk
        have hbig : E * Q ≤ E * Q * E * (a2.map fun d : Dim => d.extent).prod := by
          have : E * Q * 1 ≤ E * Q * E := mul_le_mul_of_nonneg_left (by omega) (by omega)
          nlinarith
        rcases List.mem_append.1 hd with hd | hd
        · rcases List.mem_append.1 hd with hd | hd
          · exact le_trans (m1 d hd).2.2 hbig
          · exact absurd hk (bounds_not_known hd)
        · rcases List.mem_cons.1 hd with rfl | hd
          · unfold span; simp only [abs_one, mul_one]; omega
          · rcases List.mem_append.1 hd with hd | hd
            · exact (m2 d hd).2.2
            · exact absurd hk (bounds_not_known hd)
      · simp only [List.map_nil, List.prod_nil, one_mul]
        calc _ = E * (Q * (E * ((a2.map fun d : Dim => d.extent).prod *
                (b2.map fun d : Dim => d.extent).prod))) := by ring
          _ < _ := hfit
    · have ha2 := hb hbe
      subst ha2
      refine ⟨E * (a1.map fun d : Dim => d.extent).prod, by nlinarith, ?_, ?_⟩
      · intro d hd hk
        rcases List.mem_append.1 hd with hd | hd
        · rcases List.mem_append.1 hd with hd | hd
          · exact (prodStrides_mem hE h1 hd).2.2
          · exact absurd hk (bounds_not_known hd)
        · rcases List.mem_cons.1 hd with rfl | hd
          · unfold span; simp only [abs_one, mul_one]; nlinarith
          · rcases List.mem_append.1 hd with hd | hd
            · simp [prodStrides] at hd
            · exact absurd hk (bounds_not_known hd)
      · refine lt_of_le_of_lt ?_ hfit
        rw [hQ, List.map_append, List.prod_append]
        simp only [List.map_nil, List.prod_nil, one_mul]
        set A := (a1.map fun d : Dim => d.extent).prod
        set B := (b1.map fun d : Dim => d.extent).prod
        set C := (b2.map fun d : Dim => d.extent).prod
        have h0 : 0 ≤ E * (A * (B * C)) := by positivity
        calc E * A * (B * C) = E * (A * (B * C)) * 1 := by ring
          _ ≤ E * (A * (B * C)) * E := mul_le_mul_of_nonneg_left hE h0
          _ = E * (A * B * (E * C)) := by ring

theorem values_pos {l : List SDim} (h : ∀ d ∈ l, 0 < d.val.extent) : Pos (values l) := by
  intro d hd
  obtain ⟨x, hx, rfl⟩ := List.mem_map.1 hd
  exact h x hx

end Nda
