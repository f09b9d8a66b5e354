import Verif.Props.EinAlgebra
import Verif.Props.EinDoc
import Verif.Spec.EinPrograms
import Verif.Model.EinPrograms
/-
Lemmas about sums over several loop variables (C96).
-/
namespace Nda
open Spec
variable {α : Type}

/-- All ways of giving values in their bounds to the variables `ks`. -/
def envs (B : Nat → Int × Int) : List Nat → (Nat → Int) → List (Nat → Int)
  | [], f => [f]
  | k :: ks, f => (ints (B k).1 (B k).2).flatMap fun z => envs B ks (Function.update f k z)

theorem mem_envs {B : Nat → Int × Int} {ks : List Nat} (hnd : ks.Nodup) {f e : Nat → Int} :
    e ∈ envs B ks f ↔ (∀ k ∈ ks, (B k).1 ≤ e k ∧ e k < (B k).1 + (B k).2) ∧ ∀ t, t ∉ ks → e t = f t := by
  induction ks generalizing f with
  | nil =>
    simp only [envs, List.mem_singleton, List.not_mem_nil, false_imp_iff, implies_true, true_and, not_false_eq_true,
      true_imp_iff]
    exact funext_iff
  | cons k ks ih =>
    rw [List.nodup_cons] at hnd
    simp only [envs, List.mem_flatMap, ih hnd.2, mem_ints, List.mem_cons, forall_eq_or_imp, not_or]
    constructor
    · rintro ⟨z, hz, h1, h2⟩
      have hk := h2 k hnd.1
      rw [Function.update_self] at hk
      refine ⟨⟨by rw [hk]; exact hz, h1⟩, fun t ht => ?_⟩
      rw [h2 t ht.2, Function.update_of_ne ht.1]
    · rintro ⟨⟨h0, h1⟩, h2⟩
      refine ⟨e k, h0, h1, fun t ht => ?_⟩
      by_cases htk : t = k
      · subst htk; rw [Function.update_self]
      · rw [Function.update_of_ne htk]; exact h2 t ⟨htk, ht⟩

theorem envs_nodup {B : Nat → Int × Int} {ks : List Nat} (hnd : ks.Nodup) (f : Nat → Int) : (envs B ks f).Nodup := by
  induction ks generalizing f with
  | nil => simp [envs]
  | cons k ks ih =>
    rw [List.nodup_cons] at hnd
    simp only [envs]
    rw [List.nodup_flatMap]
    refine ⟨fun z _ => ih hnd.2 _, ?_⟩
    refine (ints_nodup _ _).imp fun {z z'} hne => ?_
    intro e he he'
    have h1 := ((mem_envs hnd.2).1 he).2 k hnd.1
    have h2 := ((mem_envs hnd.2).1 he').2 k hnd.1
    rw [Function.update_self] at h1 h2
    exact hne (h1.symm.trans h2)

theorem envs_sum1 [AddCommMonoid α] (B : Nat → Int × Int) (k : Nat) (f : Nat → Int) (v : (Nat → Int) → α) :
    ((envs B [k] f).map v).sum = ∑ z ∈ Finset.Ico (B k).1 ((B k).1 + (B k).2), v (Function.update f k z) := by
  rw [← sum_ints]
  simp only [envs, ← List.map_eq_flatMap, List.map_map]
  rfl

theorem envs_sum2 [AddCommMonoid α] (B : Nat → Int × Int) (j k : Nat) (f : Nat → Int) (v : (Nat → Int) → α) :
    ((envs B [j, k] f).map v).sum = ∑ y ∈ Finset.Ico (B j).1 ((B j).1 + (B j).2),
      ∑ z ∈ Finset.Ico (B k).1 ((B k).1 + (B k).2), v (Function.update (Function.update f j y) k z) := by
  simp only [← envs_sum1]
  rw [← sum_ints]
  show ((List.flatMap (fun z => envs B [k] (Function.update f j z)) (ints (B j).1 (B j).2)).map v).sum = _
  rw [List.map_flatMap, List.flatMap_def, List.sum_flatten, List.map_map]
  rfl

/-- The loop indices that address one element of the result. -/
theorem loop_envs {B : Nat → Int × Int} {ops : List (EinOp α)} (h : Uniform B ops)
    (ht : ∀ o ∈ ops, OpTyped o) (lis : List Nat) (hlis : ∀ k ∈ lis, k < loopRank ops) {ks : List Nat} (hnd : ks.Nodup)
    (hkl : ∀ k ∈ ks, k ∉ lis ∧ ∃ o ∈ ops, OpUses o k) (fixed : Nat → Int)
    (hf : ∀ t, t < loopRank ops → t ∉ ks → ((∃ o ∈ ops, OpUses o t) → (B t).1 ≤ fixed t ∧
      fixed t < (B t).1 + (B t).2) ∧ ((∀ o ∈ ops, ¬ OpUses o t) → fixed t = 0))
    (hu : ∀ o ∈ ops, ∀ t, OpUses o t → t ∈ ks ∨ t ∈ lis) :
    ((envs B ks fixed).map fun e => (List.range (loopRank ops)).map e).Nodup ∧
    ∀ i, i ∈ ((envs B ks fixed).map fun e => (List.range (loopRank ops)).map e) ↔
      LoopIndex ops i ∧ pick lis i = lis.map fixed := by
  have hk : ∀ k ∈ ks, k < loopRank ops := by
    intro k hk
    obtain ⟨_, o, ho, hu⟩ := hkl k hk
    exact lt_loopRank ho (opUses_mem hu)
  refine ⟨(envs_nodup hnd _).map_on ?_, fun i => ?_⟩
  · intro x hx y hy e
    rw [mem_envs hnd] at hx hy
    funext t
    by_cases htk : t ∈ ks
    · exact map_range_inj e (hk t htk)
    · rw [hx.2 t htk, hy.2 t htk]
  rw [List.mem_map]
  constructor
  · rintro ⟨e, he, rfl⟩
    rw [mem_envs hnd] at he
    rw [loopIndex_env h ht, pick_map_range hlis]
    refine ⟨fun t ht' => ?_, List.map_congr_left fun t ht' => he.2 t fun hts => (hkl t hts).1 ht'⟩
    by_cases hts : t ∈ ks
    · obtain ⟨_, o, ho, hu'⟩ := hkl t hts
      exact ⟨fun _ => he.1 t hts, fun hn => absurd hu' (hn o ho)⟩
    · rw [he.2 t hts]
      exact hf t ht' hts
  · rintro ⟨hi, hp⟩
    have he := list_eq_map_getD hi.1
    rw [he] at hi hp
    rw [loopIndex_env h ht] at hi
    rw [pick_map_range hlis, List.map_inj_left] at hp
    refine ⟨fun t => if t ∈ ks then i.getD t 0 else fixed t, (mem_envs hnd).2 ⟨fun k hk' => ?_, fun t ht' => if_neg ht'⟩, ?_⟩
    · rw [if_pos hk']
      exact (hi k (hk k hk')).1 (hkl k hk').2
    · conv_rhs => rw [he]
      apply List.map_congr_left
      intro t ht'
      rw [List.mem_range] at ht'
      by_cases hts : t ∈ ks
      · rw [if_pos hts]
      · rw [if_neg hts]
        by_cases hk' : ∃ o ∈ ops, OpUses o t
        · obtain ⟨o, ho, hk'⟩ := hk'
          exact (hp t ((hu o ho t hk').resolve_left hts)).symm
        · push Not at hk'
          rw [(hi t ht').2 hk', (hf t ht' hts).2 hk']

section
variable {lhs : EinOp α} {rhs : EinExpr α} {B : Nat → Int × Int}

/-- `loop_envs` for a result that uses every variable but those of `ks`. -/
theorem loop_result (h : ∀ o ∈ lhs :: leaves rhs, HasBounds B o ∧ OpTyped o ∧ NonNeg (einDims o.op) ∧ OpBacked o)
    {lb : Int} {ld : List SDim} (hl : lhs.op = .arr (some lb) ld) {ks : List Nat} (hnd : ks.Nodup)
    (hkl : ∀ k ∈ ks, k ∉ lhs.is ∧ ∃ o ∈ leaves rhs, OpUses o k)
    (hu : ∀ o ∈ leaves rhs, ∀ t, OpUses o t → t ∈ ks ∨ t ∈ lhs.is) (fixed : Nat → Int)
    (hf : ∀ t ∈ lhs.is, (B t).1 ≤ fixed t ∧ fixed t < (B t).1 + (B t).2) (h0 : ∀ t, t ∉ lhs.is → fixed t = 0) :
    InBox (ld.map SDim.val) (lhs.is.map fixed) ∧
    ((envs B ks fixed).map fun e => (List.range (loopRank (lhs :: leaves rhs))).map e).Nodup ∧
    ∀ i, i ∈ ((envs B ks fixed).map fun e => (List.range (loopRank (lhs :: leaves rhs))).map e) ↔
      LoopIndex (lhs :: leaves rhs) i ∧ pick lhs.is i = lhs.is.map fixed := by
  have hul : ∀ t, t ∈ lhs.is → OpUses lhs t := by
    intro t ht'
    obtain ⟨op, is⟩ := lhs
    simp only at hl
    subst hl
    exact ht'
  have ht : ∀ o ∈ lhs :: leaves rhs, OpTyped o := fun o ho => (h o ho).2.1
  refine ⟨?_, loop_envs (fun o ho => (h o ho).1) ht lhs.is (fun t ht' => lt_loopRank (by simp) ht')
    hnd (fun k hk => ⟨(hkl k hk).1, ?_⟩) fixed (fun t _ hts => ⟨?_, ?_⟩) (fun o ho t hu' => ?_)⟩
  · have htl := ht lhs (by simp)
    have hBl := (h lhs (by simp)).1
    obtain ⟨op, is⟩ := lhs
    simp only at hl
    subst hl
    rw [inBox_iff_get]
    refine ⟨by rw [List.length_map, List.length_map]; exact htl.1, fun p d x hd hx => ?_⟩
    rw [List.getElem?_map, Option.map_eq_some_iff] at hx
    obtain ⟨t, ht', rfl⟩ := hx
    have := hBl p t d ht' hd
    have := hf t (List.mem_of_getElem? ht')
    omega
  · obtain ⟨o, ho, hu'⟩ := (hkl k hk).2
    exact ⟨o, by simp [ho], hu'⟩
  · rintro ⟨o, ho, hu'⟩
    rcases List.mem_cons.1 ho with rfl | ho
    · exact hf t (opUses_mem hu')
    · exact hf t ((hu o ho t hu').resolve_left hts)
  · intro hn
    exact h0 t fun ht' => hn lhs (by simp) (hul t ht')
  · rcases List.mem_cons.1 ho with rfl | ho
    · exact Or.inr (opUses_mem hu')
    · exact hu o ho t hu'

/-- A sum over the loop variables `ks`: the result uses every other variable. -/
theorem einReduce_sums [AddCommMonoid α] {m : Mem α}
    (h : ∀ o ∈ lhs :: leaves rhs, HasBounds B o ∧ OpTyped o ∧ NonNeg (einDims o.op) ∧ OpBacked o)
    (hr : GoodResult lhs rhs) {lb : Int} {ld : List SDim} (hl : lhs.op = .arr (some lb) ld) {ks : List Nat}
    (hnd : ks.Nodup) (hkl : ∀ k ∈ ks, k ∉ lhs.is ∧ ∃ o ∈ leaves rhs, OpUses o k)
    (hu : ∀ o ∈ leaves rhs, ∀ t, OpUses o t → t ∈ ks ∨ t ∈ lhs.is) :
    ∃ m', einReduce (· + ·) lhs rhs m = some m' ∧
      (∀ fixed : Nat → Int, (∀ t ∈ lhs.is, (B t).1 ≤ fixed t ∧ fixed t < (B t).1 + (B t).2) →
        (∀ t, t ∉ lhs.is → fixed t = 0) →
        m' (lb + offsetOf (ld.map SDim.val) (lhs.is.map fixed)) =
          m (lb + offsetOf (ld.map SDim.val) (lhs.is.map fixed)) +
          ((envs B ks fixed).map fun e => valueAt m
            ((List.range (loopRank (lhs :: leaves rhs))).map e) rhs).sum) ∧
      ∀ p, ¬ OpElement lhs p → m' p = m p := by
  obtain ⟨hin, ha, -, -⟩ := einInput_of h hr
  obtain ⟨m', hm', hs, hframe⟩ := C41_sum lhs rhs m hin ha lb ld hl
  refine ⟨m', hm', ?_, hframe⟩
  intro fixed hf h0
  obtain ⟨hbox, hn, hmem⟩ := loop_result h hl hnd hkl hu fixed hf h0
  have := hs _ hbox _ hn hmem
  rwa [List.map_map] at this

/-- The maximum over the loop variables `ks`. -/
theorem einReduce_maxes [LinearOrder α] {m : Mem α}
    (h : ∀ o ∈ lhs :: leaves rhs, HasBounds B o ∧ OpTyped o ∧ NonNeg (einDims o.op) ∧ OpBacked o)
    (hr : GoodResult lhs rhs) {lb : Int} {ld : List SDim} (hl : lhs.op = .arr (some lb) ld) {ks : List Nat}
    (hnd : ks.Nodup) (hkl : ∀ k ∈ ks, k ∉ lhs.is ∧ ∃ o ∈ leaves rhs, OpUses o k)
    (hu : ∀ o ∈ leaves rhs, ∀ t, OpUses o t → t ∈ ks ∨ t ∈ lhs.is) :
    ∃ m', einReduce (fun _ y => y) lhs (.binary max (.op lhs) rhs) m = some m' ∧
      (∀ fixed : Nat → Int, (∀ t ∈ lhs.is, (B t).1 ≤ fixed t ∧ fixed t < (B t).1 + (B t).2) →
        (∀ t, t ∉ lhs.is → fixed t = 0) →
        let a := lb + offsetOf (ld.map SDim.val) (lhs.is.map fixed)
        let v := fun e => valueAt m ((List.range (loopRank (lhs :: leaves rhs))).map e) rhs
        m a ≤ m' a ∧ (∀ e ∈ envs B ks fixed, v e ≤ m' a) ∧ (m' a = m a ∨ ∃ e ∈ envs B ks fixed, m' a = v e)) ∧
      ∀ p, ¬ OpElement lhs p → m' p = m p := by
  obtain ⟨hin, ha, -, -⟩ := einInput_of h hr
  obtain ⟨m', hm', hs, hframe⟩ := C65_max lhs rhs m hin ha lb ld hl
  refine ⟨m', hm', ?_, hframe⟩
  intro fixed hf h0
  obtain ⟨hbox, -, hmem⟩ := loop_result h hl hnd hkl hu fixed hf h0
  obtain ⟨h1, h2, h3⟩ := hs _ hbox
  refine ⟨h1, fun e he => ?_, h3.imp_right ?_⟩
  · obtain ⟨ha, hb⟩ := (hmem _).1 (List.mem_map_of_mem he)
    exact h2 _ ha hb
  · rintro ⟨i, ha, hb, hv⟩
    obtain ⟨e, he, rfl⟩ := List.mem_map.1 ((hmem i).2 ⟨ha, hb⟩)
    exact ⟨e, he, hv⟩

end

theorem hasBounds_vol {B : Nat → Int × Int} {b : Int} {d0 d1 d2 : SDim} {i j k : Nat}
    (h0 : d0.val.min = (B i).1 ∧ d0.val.extent = (B i).2) (h1 : d1.val.min = (B j).1 ∧ d1.val.extent = (B j).2)
    (h2 : d2.val.min = (B k).1 ∧ d2.val.extent = (B k).2) : HasBounds B (einVol b d0 d1 d2 i j k : EinOp α) := by
  intro p k d hp hd
  match p with
  | 0 => simp [einVol, einDims] at hp hd; subst hp; subst hd; exact h0
  | 1 => simp [einVol, einDims] at hp hd; subst hp; subst hd; exact h1
  | 2 => simp [einVol, einDims] at hp hd; subst hp; subst hd; exact h2
  | p + 3 => simp [einVol] at hp

theorem typed_vol {b : Int} {d0 d1 d2 : SDim} {i j k : Nat} (h0 : GoodDim d0) (h1 : GoodDim d1) (h2 : GoodDim d2) :
    OpTyped (einVol b d0 d1 d2 i j k : EinOp α) ∧ NonNeg (einDims (einVol b d0 d1 d2 i j k : EinOp α).op) ∧
      OpBacked (einVol b d0 d1 d2 i j k : EinOp α) := by
  refine ⟨⟨rfl, ?_⟩, ?_, ?_⟩
  · intro d hd
    simp only [List.mem_cons, List.not_mem_nil, or_false] at hd
    rcases hd with rfl | rfl | rfl
    · exact h0.1
    · exact h1.1
    · exact h2.1
  · intro d hd
    simp only [einVol, einDims, List.map_cons, List.map_nil, List.mem_cons, List.not_mem_nil, or_false] at hd
    rcases hd with rfl | rfl | rfl
    · exact h0.2
    · exact h1.2
    · exact h2.2
  · intro h; simp at h

theorem uses_vol {b : Int} {d0 d1 d2 : SDim} {i j k t : Nat} :
    OpUses (einVol b d0 d1 d2 i j k : EinOp α) t ↔ t = i ∨ t = j ∨ t = k := by simp [OpUses, einVol]

theorem valueAt_vol {m : Mem α} {b : Int} {d0 d1 d2 : SDim} {i j k n : Nat} (hi : i < n) (hj : j < n) (hk : k < n)
    (env : Nat → Int) : valueAt m ((List.range n).map env) (.op (einVol b d0 d1 d2 i j k)) =
      volAt m b d0 d1 d2 (env i) (env j) (env k) := by
  simp only [valueAt, einVol, offsetOf, List.map_cons, List.map_nil, pick, add_zero, ← add_assoc,
    Option.getD_some, volAt]
  rw [getD_map_range hi, getD_map_range hj, getD_map_range hk]

theorem fn_operand {B : Nat → Int × Int} (f : Index → α) (is : List Nat) :
    HasBounds B (⟨.fn f, is⟩ : EinOp α) ∧ OpTyped (⟨.fn f, is⟩ : EinOp α) ∧
      NonNeg (einDims (⟨.fn f, is⟩ : EinOp α).op) ∧ OpBacked (⟨.fn f, is⟩ : EinOp α) :=
  ⟨fun p k d _ hd => by simp [einDims] at hd, trivial, fun d hd => by simp [einDims] at hd, trivial⟩

end Nda
