import Verif.Model.CheckedLoops
import Verif.Spec.CheckedLoops
import Verif.Lemmas.Checked
import Verif.Lemmas.Values
import Mathlib.Data.List.Perm.Basic
import Mathlib.Tactic.NormNum
/-
Lemmas relating the bounded evaluation of Model/CheckedLoops.lean to unbounded integers.
-/
namespace Nda

open Spec

variable {w : Nat}

/-- `x` is evaluated without overflow and is the integer `n`. -/
def WVal (x : Option (BitVec w)) (n : Int) : Prop := ∃ r, x = some r ∧ r.toInt = n

theorem wval_add {a b : BitVec w} {m n : Int} (ha : a.toInt = m) (hb : b.toInt = n) (h : Fit w (m + n)) :
    WVal (cadd a b) (m + n) := by
  subst ha hb; exact ⟨_, cadd_some h⟩

theorem wval_sub {a b : BitVec w} {m n : Int} (ha : a.toInt = m) (hb : b.toInt = n) (h : Fit w (m - n)) :
    WVal (csub a b) (m - n) := by
  subst ha hb; exact ⟨_, csub_some h⟩

theorem wval_mul {a b : BitVec w} {m n : Int} (ha : a.toInt = m) (hb : b.toInt = n) (h : Fit w (m * n)) :
    WVal (cmul a b) (m * n) := by
  subst ha hb; exact ⟨_, cmul_some h⟩

theorem fit_of_abs {n m : Int} (h : |n| ≤ m) (hm : m < 2 ^ (w - 1)) : Fit w n := by
  have := neg_abs_le n
  have := le_abs_self n
  unfold Fit; omega

theorem one_toInt (hw : 2 ≤ w) : (1#w).toInt = 1 := by
  rw [BitVec.toInt_one (by omega)]

/-! ### Fusing -/

theorem extentWeight_pos (s : List Dim) : 1 ≤ extentWeight s := by
  induction s with
  | nil => simp [extentWeight]
  | cons d s ih =>
    unfold extentWeight
    have : 1 ≤ max d.extent 1 := le_max_right _ _
    nlinarith

theorem minReach_nonneg (s : List Dim) : 0 ≤ minReach s := by
  induction s with
  | nil => simp [minReach]
  | cons d s ih =>
    unfold minReach
    have : 1 ≤ max d.extent 1 := le_max_right _ _
    have := extentWeight_pos s
    have := abs_nonneg d.min
    positivity

theorem extentWeight_perm {s t : List Dim} (h : s.Perm t) : extentWeight s = extentWeight t := by
  induction h with
  | nil => rfl
  | cons x _ ih => simp [extentWeight, ih]
  | swap x y l => simp only [extentWeight]; ring
  | trans _ _ h1 h2 => exact h1.trans h2

theorem minReach_perm {s t : List Dim} (h : s.Perm t) : minReach s = minReach t := by
  induction h with
  | nil => rfl
  | cons x h ih => simp [minReach, ih, extentWeight_perm h]
  | swap x y l => simp only [minReach, extentWeight]; ring
  | trans _ _ h1 h2 => exact h1.trans h2

theorem Spec.FuseFits.perm {s t : List Dim} (h : s.Perm t) (hs : FuseFits w s) : FuseFits w t :=
  ⟨fun d hd => hs.nonneg d (h.mem_iff.2 hd), fun d hd => hs.span d (h.mem_iff.2 hd),
    by rw [← extentWeight_perm h]; exact hs.extents, by rw [← minReach_perm h]; exact hs.mins⟩

theorem Spec.FuseFits.tail {d : Dim} {s : List Dim} (h : FuseFits w (d :: s)) : FuseFits w s := by
  have h1 : 1 ≤ max d.extent 1 := le_max_right _ _
  have h2 := extentWeight_pos s
  have h3 := minReach_nonneg s
  have h4 := abs_nonneg d.min
  refine ⟨fun x hx => h.nonneg x (List.mem_cons_of_mem _ hx), fun x hx => h.span x (List.mem_cons_of_mem _ hx),
    lt_of_le_of_lt ?_ h.extents, lt_of_le_of_lt ?_ h.mins⟩
  · rw [show extentWeight (d :: s) = max d.extent 1 * extentWeight s from rfl]; nlinarith
  · rw [show minReach (d :: s) = |d.min| * extentWeight s + max d.extent 1 * minReach s from rfl]
    nlinarith [mul_nonneg h4 (by omega : 0 ≤ extentWeight s)]

/-- What fusing the first two dims does to the bounds. -/
theorem Spec.FuseFits.fuse {a b : Dim} {s : List Dim} (h : FuseFits w (a :: b :: s)) (hc : canFuse a b = true) :
    FuseFits w (fuse a b :: s) ∧ Fit w (b.min * a.extent) ∧ Fit w (a.min + b.min * a.extent) ∧
      Fit w (a.extent * b.extent) := by
  have ha := h.nonneg a (by simp)
  have hb := h.nonneg b (by simp)
  have hA : 1 ≤ max a.extent 1 := le_max_right _ _
  have hB : 1 ≤ max b.extent 1 := le_max_right _ _
  have hA' : a.extent ≤ max a.extent 1 := le_max_left _ _
  have hB' : b.extent ≤ max b.extent 1 := le_max_left _ _
  have hV := extentWeight_pos s
  have hM := minReach_nonneg s
  have ma := abs_nonneg a.min
  have mb := abs_nonneg b.min
  have he := h.extents
  have hm := h.mins
  simp only [extentWeight, minReach] at he hm
  have e0 : 0 ≤ a.extent * b.extent := mul_nonneg ha hb
  have e1 : a.extent * b.extent ≤ max a.extent 1 * max b.extent 1 :=
    mul_le_mul hA' hB' hb (by omega)
  have eAB : 1 ≤ max a.extent 1 * max b.extent 1 := by nlinarith
  have e2 : max (a.extent * b.extent) 1 ≤ max a.extent 1 * max b.extent 1 := max_le e1 eAB
  have m1 : |b.min * a.extent| ≤ max a.extent 1 * |b.min| := by
    rw [abs_mul, abs_of_nonneg ha, mul_comm]
    exact mul_le_mul_of_nonneg_right hA' mb
  have m2 : |a.min + b.min * a.extent| ≤ |a.min| * max b.extent 1 + max a.extent 1 * |b.min| := by
    have := abs_add_le a.min (b.min * a.extent)
    have : |a.min| ≤ |a.min| * max b.extent 1 := le_mul_of_one_le_right ma hB
    omega
  generalize max a.extent 1 = A at *
  generalize max b.extent 1 = B at *
  have k1 : (|a.min| * B + A * |b.min|) * extentWeight s + A * B * minReach s < 2 ^ (w - 1) := by
    calc _ = |a.min| * (B * extentWeight s) + A * (|b.min| * extentWeight s + B * minReach s) := by ring
      _ < _ := hm
  have p0 : 0 ≤ |a.min| * B + A * |b.min| := by positivity
  have p1 : |a.min| * B + A * |b.min| ≤ (|a.min| * B + A * |b.min|) * extentWeight s :=
    le_mul_of_one_le_right p0 hV
  have p2 : 0 ≤ A * B * minReach s := by positivity
  have p3 : A * |b.min| ≤ |a.min| * B + A * |b.min| := by
    have : 0 ≤ |a.min| * B := by positivity
    omega
  refine ⟨⟨?_, ?_, ?_, ?_⟩, ?_, ?_, ?_⟩
  · intro d hd
    rcases List.mem_cons.1 hd with rfl | hd
    · exact e0
    · exact h.nonneg d (by simp [hd])
  · intro d hd
    rcases List.mem_cons.1 hd with rfl | hd
    · have : a.stride * a.extent = b.stride := by simpa [canFuse] using hc
      show |a.stride * (a.extent * b.extent)| < _
      rw [← mul_assoc, this]
      exact h.span b (by simp)
    · exact h.span d (by simp [hd])
  · show max (a.extent * b.extent) 1 * extentWeight s < _
    refine lt_of_le_of_lt (mul_le_mul_of_nonneg_right e2 (by omega)) ?_
    rw [mul_assoc]; exact he
  · show |a.min + b.min * a.extent| * extentWeight s + max (a.extent * b.extent) 1 * minReach s < _
    have q1 := mul_le_mul_of_nonneg_right m2 (by omega : 0 ≤ extentWeight s)
    have q2 := mul_le_mul_of_nonneg_right e2 hM
    omega
  · exact fit_of_abs m1 (by omega)
  · exact fit_of_abs m2 (by omega)
  · refine fit_of_abs (m := A * B) (by rw [abs_of_nonneg e0]; exact e1) (lt_of_le_of_lt ?_ he)
    rw [← mul_assoc]
    exact le_mul_of_one_le_right (by omega) hV

theorem wCanFuse_eq {a b : WDim w} (h : |a.stride.toInt * a.extent.toInt| < 2 ^ (w - 1)) :
    wCanFuse a b = some (canFuse a.toDim b.toDim) := by
  obtain ⟨r, hr, hv⟩ := wval_mul (a := a.stride) (b := a.extent) rfl rfl (fit_of_abs (le_refl _) h)
  unfold wCanFuse
  rw [hr]
  show some (r == b.stride) = some (a.stride.toInt * a.extent.toInt == b.stride.toInt)
  rw [← hv]
  congr 1
  rw [Bool.eq_iff_iff, beq_iff_eq, beq_iff_eq, BitVec.toInt_inj]

theorem wFuse_eq {a b : WDim w} (h1 : Fit w (b.min.toInt * a.extent.toInt))
    (h2 : Fit w (a.min.toInt + b.min.toInt * a.extent.toInt)) (h3 : Fit w (a.extent.toInt * b.extent.toInt)) :
    ∃ c, wFuse a b = some c ∧ c.toDim = fuse a.toDim b.toDim := by
  obtain ⟨r1, e1, v1⟩ := wval_mul (a := b.min) (b := a.extent) rfl rfl h1
  obtain ⟨r2, e2, v2⟩ := wval_add (a := a.min) (b := r1) rfl v1 h2
  obtain ⟨r3, e3, v3⟩ := wval_mul (a := a.extent) (b := b.extent) rfl rfl h3
  refine ⟨⟨r2, r3, a.stride⟩, ?_, ?_⟩
  · unfold wFuse
    simp [e1, e2, e3]
  · unfold WDim.toDim fuse
    simp only [v2, v3]

theorem wFuseLoop_sim {α β : Type} {f : α → β} {P : List β → Prop} {canW : α → α → Option Bool}
    {fuseW : α → α → Option α} {can : β → β → Bool} {fuse : β → β → β}
    (hcan : ∀ a b l, P (f a :: f b :: l) → canW a b = some (can (f a) (f b)))
    (hfuse : ∀ a b l, P (f a :: f b :: l) → can (f a) (f b) = true →
      ∃ c, fuseW a b = some c ∧ f c = fuse (f a) (f b) ∧ P (f c :: l))
    (htail : ∀ x l, P (x :: l) → P l) (n : Nat) :
    ∀ l : List α, l.length = n → P (l.map f) →
      ∃ r, wFuseLoop canW fuseW l = some r ∧ r.map f = fuseLoop can fuse (l.map f) := by
  induction n with
  | zero =>
    intro l hl _
    obtain rfl := List.length_eq_zero_iff.1 hl
    exact ⟨[], by rw [wFuseLoop], by simp [fuseLoop]⟩
  | succ n ih =>
    intro l hl hP
    match l, hl, hP with
    | [d], _, _ => exact ⟨[d], by rw [wFuseLoop], by simp [fuseLoop]⟩
    | a :: b :: l, hl, hP =>
      simp only [List.map_cons] at hP
      rw [wFuseLoop, hcan a b _ hP]
      simp only [Option.bind_eq_bind, Option.bind_some, List.map_cons]
      rw [fuseLoop]
      by_cases hc : can (f a) (f b) = true
      · obtain ⟨c, h1, h2, h3⟩ := hfuse a b _ hP hc
        rw [if_pos hc, if_pos hc, h1]
        obtain ⟨r, hr1, hr2⟩ := ih (c :: l) (by simpa using hl) (by simpa using h3)
        refine ⟨r, hr1, ?_⟩
        rw [hr2, List.map_cons, h2]
      · rw [if_neg hc, if_neg hc]
        obtain ⟨r, hr1, hr2⟩ := ih (b :: l) (by simpa using hl) (by simpa using htail _ _ hP)
        refine ⟨a :: r, by rw [hr1]; rfl, ?_⟩
        rw [List.map_cons, hr2, List.map_cons]

theorem bubbleInner_wmap {α β : Type} {f : α → β} {lt : α → α → Bool} {lt' : β → β → Bool}
    (h : ∀ a b, lt a b = lt' (f a) (f b)) (x : α) (l : List α) :
    bubbleInner lt' (f x) (l.map f) = (f (bubbleInner lt x l).1, (bubbleInner lt x l).2.map f) := by
  induction l generalizing x with
  | nil => rfl
  | cons y ys ih =>
    simp only [List.map_cons, bubbleInner, h]
    split <;> simp [ih]

theorem bubbleSort_wmap {α β : Type} {f : α → β} {lt : α → α → Bool} {lt' : β → β → Bool}
    (h : ∀ a b, lt a b = lt' (f a) (f b)) (n : Nat) : ∀ l : List α, l.length = n →
    bubbleSort lt' (l.map f) = (bubbleSort lt l).map f := by
  induction n with
  | zero => intro l hl; obtain rfl := List.length_eq_zero_iff.1 hl; simp [bubbleSort]
  | succ n ih =>
    intro l hl
    match l, hl with
    | x :: xs, hl =>
      simp only [List.map_cons]
      rw [bubbleSort, bubbleSort]
      rw [bubbleInner_wmap h]
      rw [ih _ (by rw [bubbleInner_length]; simpa using hl), List.map_cons]

theorem padTo_wmap {α β : Type} (f : α → β) (p : α) (n : Nat) (l : List α) :
    (padTo p n l).map f = padTo (f p) n (l.map f) := by
  simp [padTo]

theorem wPad_toDim (hw : 2 ≤ w) : (wPad : WDim w).toDim = ⟨0, 1, 0⟩ := by
  unfold WDim.toDim wPad
  simp only [BitVec.toInt_zero, one_toInt hw]

theorem wDynamicOptimizeShape_eq (hw : 2 ≤ w) (s : List (WDim w)) (h : FuseFits w (s.map WDim.toDim)) :
    ∃ r, wDynamicOptimizeShape s = some r ∧ r.map WDim.toDim = dynamicOptimizeShape (s.map WDim.toDim) := by
  have hb : bubbleSort dimLt (s.map WDim.toDim) = (bubbleSort wDimLt s).map WDim.toDim :=
    bubbleSort_wmap (fun a b => by
      unfold wDimLt dimLt WDim.toDim
      rw [BitVec.slt_eq_decide]) _ s rfl
  obtain ⟨r, h1, h2⟩ := wFuseLoop_sim (f := WDim.toDim) (P := FuseFits w) (canW := wCanFuse) (fuseW := wFuse)
    (can := canFuse) (fuse := fuse)
    (fun a b l hP => wCanFuse_eq (hP.span a.toDim (by simp)))
    (fun a b l hP hc => by
      obtain ⟨k0, k1, k2, k3⟩ := hP.fuse hc
      obtain ⟨c, e1, e2⟩ := wFuse_eq k1 k2 k3
      exact ⟨c, e1, e2, by rw [e2]; exact k0⟩)
    (fun x l hP => hP.tail) _ (bubbleSort wDimLt s) rfl
    (by rw [← hb]; exact h.perm (bubbleSort_perm _ _).symm)
  refine ⟨padTo wPad s.length r, by unfold wDynamicOptimizeShape; rw [h1]; rfl, ?_⟩
  rw [padTo_wmap, wPad_toDim hw, h2, ← hb]
  unfold dynamicOptimizeShape
  rw [List.length_map]

/-! ### Copies -/

theorem wCanFuseCopy_eq {a b : WCopyDims w} (h1 : |a.src.stride.toInt * a.src.extent.toInt| < 2 ^ (w - 1))
    (h2 : |a.dst.stride.toInt * a.dst.extent.toInt| < 2 ^ (w - 1)) :
    wCanFuseCopy a b = some (canFuseCopy a.toCopyDims b.toCopyDims) := by
  unfold wCanFuseCopy canFuseCopy
  rw [wCanFuse_eq h1, wCanFuse_eq h2]
  have e : (a.src.extent == a.dst.extent) = (a.toCopyDims.src.extent == a.toCopyDims.dst.extent) := by
    rw [Bool.eq_iff_iff, beq_iff_eq, beq_iff_eq]
    exact BitVec.toInt_inj.symm
  rw [e]
  show (if _ then (if canFuse a.src.toDim b.src.toDim = true then some (canFuse a.dst.toDim b.dst.toDim) else some false)
    else some false) = some ((a.toCopyDims.src.extent == a.toCopyDims.dst.extent) &&
      canFuse a.src.toDim b.src.toDim && canFuse a.dst.toDim b.dst.toDim)
  cases (a.toCopyDims.src.extent == a.toCopyDims.dst.extent) <;> cases canFuse a.src.toDim b.src.toDim <;> simp

theorem wFuseCopy_fits {a b : WCopyDims w} {l : List CopyDims}
    (hs : FuseFits w ((a.toCopyDims :: b.toCopyDims :: l).map CopyDims.src))
    (hd : FuseFits w ((a.toCopyDims :: b.toCopyDims :: l).map CopyDims.dst))
    (hc : canFuseCopy a.toCopyDims b.toCopyDims = true) :
    ∃ c, wFuseCopy a b = some c ∧ c.toCopyDims = fuseCopy a.toCopyDims b.toCopyDims ∧
      FuseFits w ((c.toCopyDims :: l).map CopyDims.src) ∧ FuseFits w ((c.toCopyDims :: l).map CopyDims.dst) := by
  unfold canFuseCopy at hc
  simp only [Bool.and_eq_true] at hc
  obtain ⟨⟨_, c1⟩, c2⟩ := hc
  obtain ⟨s0, s1, s2, s3⟩ := Spec.FuseFits.fuse hs c1
  obtain ⟨d0, d1, d2, d3⟩ := Spec.FuseFits.fuse hd c2
  obtain ⟨x, e1, e2⟩ := wFuse_eq (a := a.src) (b := b.src) s1 s2 s3
  obtain ⟨y, e3, e4⟩ := wFuse_eq (a := a.dst) (b := b.dst) d1 d2 d3
  refine ⟨⟨x, y⟩, by unfold wFuseCopy; rw [e1, e3]; rfl, ?_, ?_, ?_⟩
  · show CopyDims.mk x.toDim y.toDim = _
    rw [e2, e4]; rfl
  · show FuseFits w (x.toDim :: l.map CopyDims.src)
    rw [e2]; exact s0
  · show FuseFits w (y.toDim :: l.map CopyDims.dst)
    rw [e4]; exact d0

theorem zipWith_toCopyDims : ∀ src dst : List (WDim w),
    List.zipWith CopyDims.mk (src.map WDim.toDim) (dst.map WDim.toDim) =
      (List.zipWith WCopyDims.mk src dst).map WCopyDims.toCopyDims
  | [], _ => by simp
  | _ :: _, [] => by simp
  | s :: src, d :: dst => by
    simp only [List.map_cons, List.zipWith_cons_cons, zipWith_toCopyDims src dst]
    rfl

theorem zipWith_copy_src : ∀ {src dst : List Dim}, src.length = dst.length →
    (List.zipWith CopyDims.mk src dst).map CopyDims.src = src ∧
    (List.zipWith CopyDims.mk src dst).map CopyDims.dst = dst
  | [], [], _ => by simp
  | s :: src, d :: dst, h => by
    obtain ⟨h1, h2⟩ := zipWith_copy_src (src := src) (dst := dst) (by simpa using h)
    simp [h1, h2]

/-- The dims of a copy after optimization, before they are separated. -/
theorem wCopyDims_eq (hw : 2 ≤ w) (dims : List (WCopyDims w))
    (hs : FuseFits w ((dims.map WCopyDims.toCopyDims).map CopyDims.src))
    (hd : FuseFits w ((dims.map WCopyDims.toCopyDims).map CopyDims.dst)) :
    ∃ r, wFuseLoop wCanFuseCopy wFuseCopy (bubbleSort wCopyDimsLt dims) = some r ∧
      (padTo ⟨wPad, wPad⟩ dims.length r).map WCopyDims.toCopyDims =
      padTo ⟨⟨0, 1, 0⟩, ⟨0, 1, 0⟩⟩ (dims.map WCopyDims.toCopyDims).length
        (fuseLoop canFuseCopy fuseCopy (bubbleSort copyDimsLt (dims.map WCopyDims.toCopyDims))) := by
  have hb : bubbleSort copyDimsLt (dims.map WCopyDims.toCopyDims) =
      (bubbleSort wCopyDimsLt dims).map WCopyDims.toCopyDims :=
    bubbleSort_wmap (fun a b => by
      show a.dst.stride.slt b.dst.stride = decide (a.dst.stride.toInt < b.dst.stride.toInt)
      rw [BitVec.slt_eq_decide]) _ dims rfl
  obtain ⟨r, h1, h2⟩ := wFuseLoop_sim (f := WCopyDims.toCopyDims)
    (P := fun l => FuseFits w (l.map CopyDims.src) ∧ FuseFits w (l.map CopyDims.dst))
    (canW := wCanFuseCopy) (fuseW := wFuseCopy) (can := canFuseCopy) (fuse := fuseCopy)
    (fun a b l hP => wCanFuseCopy_eq (hP.1.span a.src.toDim (by simp [WCopyDims.toCopyDims]))
      (hP.2.span a.dst.toDim (by simp [WCopyDims.toCopyDims])))
    (fun a b l hP hc => wFuseCopy_fits hP.1 hP.2 hc)
    (fun x l hP => ⟨hP.1.tail, hP.2.tail⟩) _ (bubbleSort wCopyDimsLt dims) rfl
    (by
      rw [← hb]
      exact ⟨hs.perm ((bubbleSort_perm _ _).symm.map _), hd.perm ((bubbleSort_perm _ _).symm.map _)⟩)
  refine ⟨r, h1, ?_⟩
  rw [padTo_wmap, h2, ← hb, List.length_map]
  show padTo (CopyDims.mk wPad.toDim wPad.toDim) _ _ = _
  rw [wPad_toDim hw]

/-- What a step of the fusing loop preserves, the loop preserves. -/
theorem fuseLoop_forall {α : Type} {can : α → α → Bool} {fuse : α → α → α} {R : α → Prop} {g : α → Int}
    (h : ∀ a b, R a → R b → can a b = true → R (fuse a b) ∧ g (fuse a b) = g a + g b) (n : Nat) :
    ∀ l : List α, l.length = n → (∀ a ∈ l, R a) →
      (∀ a ∈ fuseLoop can fuse l, R a) ∧ ((fuseLoop can fuse l).map g).sum = (l.map g).sum := by
  induction n with
  | zero =>
    intro l hl _
    obtain rfl := List.length_eq_zero_iff.1 hl
    simp [fuseLoop]
  | succ n ih =>
    intro l hl hR
    match l, hl, hR with
    | [d], _, hR => simpa [fuseLoop] using hR
    | a :: b :: l, hl, hR =>
      rw [fuseLoop]
      by_cases hc : can a b = true
      · rw [if_pos hc]
        obtain ⟨h1, h2⟩ := h a b (hR a (by simp)) (hR b (by simp)) hc
        obtain ⟨k1, k2⟩ := ih (fuse a b :: l) (by simpa using hl) (by
          intro x hx
          rcases List.mem_cons.1 hx with rfl | hx
          · exact h1
          · exact hR x (by simp [hx]))
        refine ⟨k1, ?_⟩
        rw [k2]
        simp only [List.map_cons, List.sum_cons, h2]
        ring
      · rw [if_neg hc]
        obtain ⟨k1, k2⟩ := ih (b :: l) (by simpa using hl) fun x hx => hR x (List.mem_cons_of_mem _ hx)
        refine ⟨?_, ?_⟩
        · intro x hx
          rcases List.mem_cons.1 hx with rfl | hx
          · exact hR _ (by simp)
          · exact k1 x hx
        · rw [List.map_cons, List.sum_cons, k2]; simp

/-- The interval of the destination lies in that of the source. -/
def CopyInside (c : CopyDims) : Prop :=
  0 ≤ c.dst.extent ∧ c.src.min ≤ c.dst.min ∧ c.dst.min + c.dst.extent ≤ c.src.min + c.src.extent

/-- How far apart the first elements are in memory. -/
def copyReach (c : CopyDims) : Int := |(c.dst.min - c.src.min) * c.src.stride|

theorem fuseCopy_inside (a b : CopyDims) (ha : CopyInside a) (hb : CopyInside b) (hc : canFuseCopy a b = true) :
    CopyInside (fuseCopy a b) ∧ copyReach (fuseCopy a b) = copyReach a + copyReach b := by
  unfold canFuseCopy canFuse at hc
  simp only [Bool.and_eq_true, beq_iff_eq] at hc
  obtain ⟨⟨c0, c1⟩, c2⟩ := hc
  obtain ⟨a1, a2, a3⟩ := ha
  obtain ⟨b1, b2, b3⟩ := hb
  have hm : a.dst.min = a.src.min := by omega
  unfold CopyInside copyReach fuseCopy fuse
  dsimp only
  rw [hm, c0]
  refine ⟨⟨by positivity, ?_, ?_⟩, ?_⟩
  · have := mul_le_mul_of_nonneg_right b2 a1
    omega
  · have := mul_le_mul_of_nonneg_left b3 a1
    have e1 : a.dst.extent * (b.dst.min + b.dst.extent) = b.dst.min * a.dst.extent + a.dst.extent * b.dst.extent := by
      ring
    have e2 : a.dst.extent * (b.src.min + b.src.extent) = b.src.min * a.dst.extent + a.dst.extent * b.src.extent := by
      ring
    omega
  · rw [← c1, c0]
    have e : a.src.min + b.dst.min * a.dst.extent - (a.src.min + b.src.min * a.dst.extent) =
        (b.dst.min - b.src.min) * a.dst.extent := by ring
    rw [e]
    simp only [sub_self, zero_mul, abs_zero, zero_add]
    congr 1; ring

/-! ### Flat offsets -/

theorem wSum_val : ∀ (xs : List (BitVec w)),
    (List.map (fun x => |x|) (List.map BitVec.toInt xs)).sum < 2 ^ (w - 1) →
    WVal (wSum xs) (List.map BitVec.toInt xs).sum
  | [], _ => ⟨_, rfl, by simp⟩
  | [x0], _ => ⟨_, rfl, by simp⟩
  | [x0, x1], h => by
    simp only [List.map_cons, List.map_nil, List.sum_cons, List.sum_nil, add_zero] at h ⊢
    exact wval_add rfl rfl (fit_of_abs (abs_add_le _ _) h)
  | [x0, x1, x2], h => by
    simp only [List.map_cons, List.map_nil, List.sum_cons, List.sum_nil, add_zero] at h ⊢
    have a1 := abs_add_le x0.toInt x1.toInt
    have a2 := abs_add_le (x0.toInt + x1.toInt) x2.toInt
    have a3 := abs_nonneg x2.toInt
    rw [← add_assoc]
    obtain ⟨a, ha, va⟩ := wval_add (a := x0) (b := x1) rfl rfl (fit_of_abs (le_refl _) (by omega))
    obtain ⟨b, hb, vb⟩ := wval_add (a := a) (b := x2) va rfl (fit_of_abs (le_refl _) (by omega))
    exact ⟨b, by simp [wSum, ha, hb], vb⟩
  | x0 :: x1 :: x2 :: x3 :: rest, h => by
    simp only [List.map_cons, List.sum_cons] at h ⊢
    have hr0 := sum_abs_nonneg (rest.map BitVec.toInt)
    have hr1 := abs_sum_le (rest.map BitVec.toInt)
    have p0 := abs_nonneg x0.toInt
    have p1 := abs_nonneg x1.toInt
    have p2 := abs_nonneg x2.toInt
    have p3 := abs_nonneg x3.toInt
    obtain ⟨r, hr, vr⟩ := wSum_val rest (by omega)
    have e : x0.toInt + (x1.toInt + (x2.toInt + (x3.toInt + (List.map BitVec.toInt rest).sum))) =
        x0.toInt + x1.toInt + x2.toInt + x3.toInt + (List.map BitVec.toInt rest).sum := by ring
    rw [e]
    generalize (List.map (fun x => |x|) (List.map BitVec.toInt rest)).sum = T at *
    generalize (List.map BitVec.toInt rest).sum = S at *
    have a1 := abs_add_le x0.toInt x1.toInt
    have a2 := abs_add_le (x0.toInt + x1.toInt) x2.toInt
    have a3 := abs_add_le (x0.toInt + x1.toInt + x2.toInt) x3.toInt
    have a4 := abs_add_le (x0.toInt + x1.toInt + x2.toInt + x3.toInt) S
    obtain ⟨a, ha, va⟩ := wval_add (a := x0) (b := x1) rfl rfl (fit_of_abs (le_refl _) (by omega))
    obtain ⟨b, hb, vb⟩ := wval_add (a := a) (b := x2) va rfl (fit_of_abs (le_refl _) (by omega))
    obtain ⟨c, hc, vc⟩ := wval_add (a := b) (b := x3) vb rfl (fit_of_abs (le_refl _) (by omega))
    obtain ⟨d, hd, vd⟩ := wval_add (a := c) (b := r) vc vr (fit_of_abs (le_refl _) (by omega))
    exact ⟨d, by simp [wSum, ha, hb, hc, hr, hd], vd⟩

theorem wFlatOffset_val (s : List (WDim w)) (i : List (BitVec w))
    (hsub : ∀ p ∈ s.zip i, Fit w (p.2.toInt - p.1.min.toInt))
    (hsum : ((s.zip i).map fun p => |(p.2.toInt - p.1.min.toInt) * p.1.stride.toInt|).sum < 2 ^ (w - 1)) :
    WVal (wFlatOffset s i) ((s.zip i).map fun p => (p.2.toInt - p.1.min.toInt) * p.1.stride.toInt).sum := by
  unfold wFlatOffset
  have key : ∀ l : List (WDim w × BitVec w), (∀ p ∈ l, Fit w (p.2.toInt - p.1.min.toInt)) →
      (l.map fun p => |(p.2.toInt - p.1.min.toInt) * p.1.stride.toInt|).sum < 2 ^ (w - 1) →
      ∃ xs, l.mapM (fun p => p.1.flatOffset p.2) = some xs ∧
        xs.map BitVec.toInt = l.map fun p => (p.2.toInt - p.1.min.toInt) * p.1.stride.toInt := by
    intro l
    induction l with
    | nil => intro _ _; exact ⟨[], rfl, rfl⟩
    | cons p l ih =>
      intro h1 h2
      simp only [List.map_cons, List.sum_cons] at h2
      have h3 := sum_abs_nonneg (l.map fun p : WDim w × BitVec w => (p.2.toInt - p.1.min.toInt) * p.1.stride.toInt)
      rw [List.map_map] at h3
      have h3 : 0 ≤ (l.map fun p : WDim w × BitVec w => |(p.2.toInt - p.1.min.toInt) * p.1.stride.toInt|).sum := h3
      have h4 := abs_nonneg ((p.2.toInt - p.1.min.toInt) * p.1.stride.toInt)
      obtain ⟨xs, e1, e2⟩ := ih (fun q hq => h1 q (List.mem_cons_of_mem _ hq)) (by omega)
      obtain ⟨a, ha, va⟩ := wval_sub (a := p.2) (b := p.1.min) rfl rfl (h1 p (by simp))
      obtain ⟨b, hb, vb⟩ := wval_mul (a := a) (b := p.1.stride) va rfl (fit_of_abs (le_refl _) (by omega))
      refine ⟨b :: xs, ?_, by simp [vb, e2]⟩
      have hf : p.1.flatOffset p.2 = some b := by unfold WDim.flatOffset; rw [ha]; exact hb
      rw [List.mapM_cons, hf, e1]
      rfl
  obtain ⟨xs, e1, e2⟩ := key _ hsub hsum
  rw [e1]
  have := wSum_val xs (by rw [e2, List.map_map]; exact hsum)
  rw [e2] at this
  exact this

/-- The offsets at which a copy starts. -/
theorem wStart_val (D : List (WCopyDims w)) (hin : ∀ c ∈ D, CopyInside c.toCopyDims)
    (hr : ((D.map WCopyDims.toCopyDims).map copyReach).sum < 2 ^ (w - 1)) :
    WVal (wFlatOffset (D.map WCopyDims.src) ((D.map WCopyDims.dst).map WDim.min))
      ((D.map WCopyDims.toCopyDims).map fun c => (c.dst.min - c.src.min) * c.src.stride).sum ∧
    WVal (wFlatOffset (D.map WCopyDims.dst) ((D.map WCopyDims.dst).map WDim.min)) 0 := by
  have hp : (0 : Int) < 2 ^ (w - 1) := by positivity
  have z1 : (D.map WCopyDims.src).zip ((D.map WCopyDims.dst).map WDim.min) = D.map fun c => (c.src, c.dst.min) := by
    rw [List.map_map, List.zip_map']; rfl
  have z2 : (D.map WCopyDims.dst).zip ((D.map WCopyDims.dst).map WDim.min) = D.map fun c => (c.dst, c.dst.min) := by
    rw [List.map_map, List.zip_map']; rfl
  constructor
  · have := wFlatOffset_val (D.map WCopyDims.src) ((D.map WCopyDims.dst).map WDim.min) (by
      rw [z1]
      intro p hp
      obtain ⟨c, hc, rfl⟩ := List.mem_map.1 hp
      obtain ⟨h0, h1, h2⟩ := hin c hc
      have h0 : 0 ≤ c.dst.extent.toInt := h0
      have h1 : c.src.min.toInt ≤ c.dst.min.toInt := h1
      have h2 : c.dst.min.toInt + c.dst.extent.toInt ≤ c.src.min.toInt + c.src.extent.toInt := h2
      have := fit_toInt c.src.extent
      unfold Fit at this ⊢
      dsimp only
      omega) (by
      rw [z1, List.map_map]
      rw [List.map_map] at hr
      exact hr)
    rw [z1] at this
    simp only [List.map_map, Function.comp_def] at this ⊢
    exact this
  · have := wFlatOffset_val (D.map WCopyDims.dst) ((D.map WCopyDims.dst).map WDim.min) (by
      rw [z2]
      intro p hp
      obtain ⟨c, hc, rfl⟩ := List.mem_map.1 hp
      unfold Fit
      simp) (by
      rw [z2, List.map_map]
      simp [Function.comp_def])
    rw [z2, List.map_map] at this
    simpa [Function.comp_def] using this

theorem Spec.InsideOf.length : ∀ {src dst : List Dim}, InsideOf src dst → src.length = dst.length
  | [], [], _ => rfl
  | _ :: _, _ :: _, h => by simp [h.2.length]

theorem insideOf_copy : ∀ {src dst : List Dim}, InsideOf src dst → (∀ d ∈ dst, 0 ≤ d.extent) →
    (∀ c ∈ List.zipWith CopyDims.mk src dst, CopyInside c) ∧
    ((List.zipWith CopyDims.mk src dst).map copyReach).sum = startReach src dst ∧
    ((List.zipWith CopyDims.mk src dst).map fun c => (c.dst.min - c.src.min) * c.src.stride).sum =
      offsetOf src (dst.map Dim.min)
  | [], [], _, _ => by simp [startReach, offsetOf]
  | s :: src, d :: dst, h, hn => by
    obtain ⟨h0, h⟩ := h
    obtain ⟨h1, h2, h3⟩ := insideOf_copy h fun x hx => hn x (List.mem_cons_of_mem _ hx)
    refine ⟨?_, ?_, ?_⟩
    · intro c hc
      rw [List.zipWith_cons_cons, List.mem_cons] at hc
      rcases hc with rfl | hc
      · exact ⟨hn d (by simp), h0.1, h0.2⟩
      · exact h1 c hc
    · simp only [List.zipWith_cons_cons, List.map_cons, List.sum_cons, h2, startReach, copyReach]
    · simp only [List.zipWith_cons_cons, List.map_cons, List.sum_cons, h3, offsetOf]

theorem fuseCopy_signed (a b : CopyDims) (ha : CopyInside a) (hb : CopyInside b) (hc : canFuseCopy a b = true) :
    CopyInside (fuseCopy a b) ∧ (((fuseCopy a b).dst.min - (fuseCopy a b).src.min) * (fuseCopy a b).src.stride) =
      (a.dst.min - a.src.min) * a.src.stride + (b.dst.min - b.src.min) * b.src.stride := by
  refine ⟨(fuseCopy_inside a b ha hb hc).1, ?_⟩
  unfold canFuseCopy canFuse at hc
  simp only [Bool.and_eq_true, beq_iff_eq] at hc
  obtain ⟨⟨c0, c1⟩, c2⟩ := hc
  unfold fuseCopy fuse
  dsimp only
  rw [← c1, ← c0]
  ring

end Nda
