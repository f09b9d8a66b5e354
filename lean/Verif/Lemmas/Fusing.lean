import Verif.Lemmas.Order
import Verif.Lemmas.Pointers
import Verif.Spec.Fusing
import Mathlib.Data.List.Chain
/-
Shape optimization finds the shortest loop nest (C86).
-/
namespace Nda
open Spec

/-! ### Nests with the same sequence of offsets -/

section
variable {P : Type} [AddCommGroup P]

/-- The offset at step `k` of a nest. -/
def stepOffset : List (Nat × P) → Nat → P
  | [], _ => 0
  | (n, s) :: ds, k => (k % n) • s + stepOffset ds (k / n)

def steps (l : List (Nat × P)) : Nat := (l.map Prod.fst).prod

theorem steps_cons (n : Nat) (s : P) (ds : List (Nat × P)) : steps ((n, s) :: ds) = n * steps ds := by
  simp [steps]

theorem lbox_steps (l : List (Nat × P)) (h : ∀ d ∈ l, 0 < d.1) : lbox l = (List.range (steps l)).map (stepOffset l) := by
  induction l with
  | nil => simp [lbox, steps, stepOffset]
  | cons d ds ih =>
    obtain ⟨n, s⟩ := d
    have hn : 0 < n := h (n, s) (by simp)
    rw [lbox_cons, ih fun d hd => h d (by simp [hd]), steps_cons, range_mul, List.flatMap_map]
    congr 1
    ext1 j
    apply List.map_congr_left
    intro i hi
    rw [List.mem_range] at hi
    rw [stepOffset, Nat.add_mul_mod_self_right, Nat.mod_eq_of_lt hi, Nat.add_mul_div_right _ _ hn, Nat.div_eq_of_lt hi, zero_add]

theorem stepOffset_zero (l : List (Nat × P)) : stepOffset l 0 = 0 := by
  induction l with
  | nil => rfl
  | cons d ds ih => obtain ⟨n, s⟩ := d; simp [stepOffset, ih]

theorem steps_pos {l : List (Nat × P)} (h : ∀ d ∈ l, 2 ≤ d.1) : 0 < steps l := by
  induction l with
  | nil => simp [steps]
  | cons d ds ih =>
    obtain ⟨n, s⟩ := d
    rw [steps_cons]
    have : 2 ≤ n := h (n, s) (by simp)
    exact Nat.mul_pos (by omega) (ih fun d hd => h d (by simp [hd]))

theorem stepOffset_small {n : Nat} {s : P} {ds : List (Nat × P)} {k : Nat} (hk : k < n) : stepOffset ((n, s) :: ds) k = k • s := by
  rw [stepOffset, Nat.mod_eq_of_lt hk, Nat.div_eq_of_lt hk, stepOffset_zero, add_zero]

theorem stepOffset_mul {n : Nat} {s : P} {ds : List (Nat × P)} (hn : 0 < n) (k : Nat) :
    stepOffset ((n, s) :: ds) (n * k) = stepOffset ds k := by
  rw [stepOffset, Nat.mul_mod_right, zero_smul, zero_add, Nat.mul_div_cancel_left _ hn]

def Fixed (l : List (Nat × P)) : Prop := (∀ d ∈ l, 2 ≤ d.1) ∧ l.IsChain fun a b => a.1 • a.2 ≠ b.2

theorem Fixed.tail {d : Nat × P} {l : List (Nat × P)} (h : Fixed (d :: l)) : Fixed l :=
  ⟨fun e he => h.1 e (by simp [he]), h.2.tail⟩

/-- The first loop runs as long as the offsets are multiples of the first offset that is not 0. -/
theorem fixed_first_le {n n' : Nat} {s : P} {ds ds' : List (Nat × P)} (h : Fixed ((n, s) :: ds)) (h' : Fixed ((n', s) :: ds'))
    (hs : steps ((n, s) :: ds) = steps ((n', s) :: ds'))
    (ho : ∀ k, k < steps ((n, s) :: ds) → stepOffset ((n, s) :: ds) k = stepOffset ((n', s) :: ds') k) : n' ≤ n := by
  by_contra hlt
  push Not at hlt
  have hn : 2 ≤ n := h.1 (n, s) (by simp)
  have hp' := steps_pos h'.tail.1
  rw [steps_cons, steps_cons] at hs
  cases ds with
  | nil =>
    simp only [steps, List.map_nil, List.prod_nil, mul_one] at hs
    have : n' ≤ n' * steps ds' := Nat.le_mul_of_pos_right _ hp'
    unfold steps at this
    omega
  | cons e es =>
    obtain ⟨m, t⟩ := e
    have hm : 2 ≤ m := h.1 (m, t) (by simp)
    have hp := steps_pos h.tail.tail.1
    have hlt2 : n < steps ((n, s) :: (m, t) :: es) := by
      rw [steps_cons, steps_cons]
      have : 2 ≤ m * steps es := le_trans hm (Nat.le_mul_of_pos_right _ hp)
      calc n < n * 2 := by omega
        _ ≤ _ := Nat.mul_le_mul_left _ this
    have h1 := ho n hlt2
    rw [stepOffset_small hlt] at h1
    have h2 := stepOffset_mul (s := s) (ds := (m, t) :: es) (show 0 < n by omega) 1
    rw [mul_one, stepOffset_small (n := m) (show 1 < m by omega), one_smul] at h2
    have h3 := h.2
    rw [List.isChain_cons_cons] at h3
    exact h3.1 (by dsimp only; rw [← h1, h2])

theorem fixed_unique : ∀ {l l' : List (Nat × P)}, Fixed l → Fixed l' → steps l = steps l' →
    (∀ k, k < steps l → stepOffset l k = stepOffset l' k) → l = l' := by
  intro l
  induction l with
  | nil =>
    intro l' _ h' hs _
    cases l' with
    | nil => rfl
    | cons d ds =>
      obtain ⟨n, s⟩ := d
      have h1 : 2 ≤ n := h'.1 (n, s) (by simp)
      have h2 := steps_pos h'.tail.1
      rw [steps_cons] at hs
      have : n ≤ n * steps ds := Nat.le_mul_of_pos_right _ h2
      simp only [steps, List.map_nil, List.prod_nil] at hs
      unfold steps at this
      omega
  | cons d ds ih =>
    intro l' h h' hs ho
    obtain ⟨n, s⟩ := d
    have hn : 2 ≤ n := h.1 (n, s) (by simp)
    have hp := steps_pos h.tail.1
    cases l' with
    | nil =>
      rw [steps_cons] at hs
      have : n ≤ n * steps ds := Nat.le_mul_of_pos_right _ hp
      simp only [steps, List.map_nil, List.prod_nil] at hs
      unfold steps at this
      omega
    | cons d' ds' =>
      obtain ⟨n', s'⟩ := d'
      have hn' : 2 ≤ n' := h'.1 (n', s') (by simp)
      have hgt : 1 < steps ((n, s) :: ds) := by
        rw [steps_cons]
        have : n ≤ n * steps ds := Nat.le_mul_of_pos_right _ hp
        omega
      have h1 := ho 1 hgt
      rw [stepOffset_small (by omega), stepOffset_small (by omega), one_smul, one_smul] at h1
      subst h1
      have hle := fixed_first_le h h' hs ho
      have hge := fixed_first_le h' h hs.symm fun k hk => (ho k (by rw [hs]; exact hk)).symm
      obtain rfl : n = n' := by omega
      rw [steps_cons, steps_cons] at hs
      have hs' : steps ds = steps ds' := Nat.eq_of_mul_eq_mul_left (by omega) hs
      rw [ih h.tail h'.tail hs' fun k hk => ?_]
      have := ho (n * k) (by rw [steps_cons]; exact Nat.mul_lt_mul_of_pos_left hk (by omega))
      rwa [stepOffset_mul (by omega), stepOffset_mul (by omega)] at this

theorem Fixed.unique {l l' : List (Nat × P)} (h : Fixed l) (h' : Fixed l') (e : lbox l = lbox l') : l = l' := by
  rw [lbox_steps l fun d hd => by have := h.1 d hd; omega, lbox_steps l' fun d hd => by have := h'.1 d hd; omega] at e
  have hl := congrArg List.length e
  simp only [List.length_map, List.length_range] at hl
  refine fixed_unique h h' hl fun k hk => ?_
  have := congrArg (fun m : List P => m[k]?) e
  simpa [hk, ← hl] using this

theorem lbox_filter (l : List (Nat × P)) : lbox (l.filter fun d => d.1 ≠ 1) = lbox l := by
  induction l with
  | nil => rfl
  | cons d ds ih =>
    obtain ⟨n, s⟩ := d
    by_cases hn : n = 1
    · subst hn
      rw [List.filter_cons_of_neg (by simp), ih, lbox_cons]
      simp [List.range_succ]
    · rw [List.filter_cons_of_pos (by simpa using hn), lbox_cons, lbox_cons, ih]

end

/-! ### What the fusing loop leaves -/

theorem fuseLoop_head {α : Type} {can : α → α → Bool} {f : α → α → α} (hc : ∀ a b c, can a (f b c) = can a b) (d : α) (l : List α) :
    ∃ h t, fuseLoop can f (d :: l) = h :: t ∧ ∀ a, can a h = can a d := by
  induction l generalizing d with
  | nil => exact ⟨d, [], by rw [fuseLoop], fun _ => rfl⟩
  | cons e l ih =>
    rw [fuseLoop]
    split
    · obtain ⟨h, t, e1, e2⟩ := ih (f d e)
      exact ⟨h, t, e1, fun a => by rw [e2, hc]⟩
    · exact ⟨d, _, rfl, fun _ => rfl⟩

theorem fuseLoop_chain {α : Type} {can : α → α → Bool} {f : α → α → α} (hc : ∀ a b c, can a (f b c) = can a b) (l : List α) :
    (fuseLoop can f l).IsChain fun a b => can a b = false := by
  induction hn : l.length generalizing l with
  | zero => rw [List.length_eq_zero_iff.1 hn, fuseLoop]; exact List.isChain_nil
  | succ n ih =>
    match l with
    | [d] => rw [fuseLoop]; exact List.isChain_singleton _
    | d0 :: d1 :: ds =>
      rw [fuseLoop]
      split
      · exact ih _ (by simpa using hn)
      · rename_i hcan
        have h1 := ih (d1 :: ds) (by simpa using hn)
        obtain ⟨h, t, e1, e2⟩ := fuseLoop_head hc d1 ds
        rw [e1] at h1 ⊢
        exact List.isChain_cons_cons.2 ⟨by rw [e2]; simpa using hcan, h1⟩

theorem fuseLoop_mem {α : Type} {can : α → α → Bool} {f : α → α → α} {R : α → Prop} (hf : ∀ a b, R a → R b → can a b = true → R (f a b))
    (l : List α) (h : ∀ a ∈ l, R a) : ∀ a ∈ fuseLoop can f l, R a := by
  induction hn : l.length generalizing l with
  | zero => rw [List.length_eq_zero_iff.1 hn, fuseLoop]; simp
  | succ n ih =>
    match l with
    | [d] => rw [fuseLoop]; exact h
    | d0 :: d1 :: ds =>
      rw [fuseLoop]
      split
      · rename_i hc
        refine ih _ ?_ (by simpa using hn)
        intro a ha
        rcases List.mem_cons.1 ha with rfl | ha
        · exact hf _ _ (h _ (by simp)) (h _ (by simp)) hc
        · exact h _ (by simp [ha])
      · intro a ha
        rcases List.mem_cons.1 ha with rfl | ha
        · exact h _ (by simp)
        · exact ih (d1 :: ds) (fun b hb => h b (List.mem_cons_of_mem _ hb)) (by simpa using hn) a ha

/-- The strides that are left are some of the strides, in the same order. -/
theorem fuseLoop_sublist {α : Type} {can : α → α → Bool} {f : α → α → α} {g : α → Int} (hf : ∀ a b, g (f a b) = g a) (l : List α) :
    ((fuseLoop can f l).map g).Sublist (l.map g) := by
  induction hn : l.length generalizing l with
  | zero => rw [List.length_eq_zero_iff.1 hn, fuseLoop]
  | succ n ih =>
    match l with
    | [d] => rw [fuseLoop]
    | d0 :: d1 :: ds =>
      rw [fuseLoop]
      split
      · have := ih (f d0 d1 :: ds) (by simpa using hn)
        rw [List.map_cons, hf] at this
        refine this.trans ?_
        rw [List.map_cons, List.map_cons]
        exact (List.Sublist.cons _ (List.Sublist.refl _)).cons₂ _
      · rw [List.map_cons, List.map_cons]
        exact (ih (d1 :: ds) (by simpa using hn)).cons₂ _

theorem canFuse_fuse (a b c : Dim) : canFuse a (fuse b c) = canFuse a b := rfl

theorem canFuseCopy_fuse (a b c : CopyDims) : canFuseCopy a (fuseCopy b c) = canFuseCopy a b := rfl

theorem mul_ge_two {a b : Int} (ha : 2 ≤ a) (hb : 2 ≤ b) : 2 ≤ a * b := by nlinarith

theorem fixed_es {l : List Dim} (h : ∀ d ∈ l, 2 ≤ d.extent) : Fixed ((fuseLoop canFuse fuse l).map es) := by
  have h2 := fuseLoop_mem (can := canFuse) (f := fuse) (R := fun d => 2 ≤ d.extent) (fun a b ha hb _ => mul_ge_two ha hb) l h
  have h3 := fuseLoop_chain canFuse_fuse l
  generalize fuseLoop canFuse fuse l = m at h2 h3
  refine ⟨?_, ?_⟩
  · intro d hd
    obtain ⟨e, he, rfl⟩ := List.mem_map.1 hd
    have := h2 e he
    simp only [es]; omega
  · rw [List.isChain_map]
    refine h3.imp_of_mem_imp fun a b ha _ hab => ?_
    have := h2 a ha
    simp only [es, nsmul_eq_mul]
    rw [Int.natCast_toNat_eq_self.2 (by omega)]
    intro hc
    rw [Bool.eq_false_iff, Ne, canFuse_iff, mul_comm] at hab
    exact hab hc

theorem fixed_ces {l : List CopyDims} (h : ∀ d ∈ l, d.src.extent = d.dst.extent ∧ 2 ≤ d.dst.extent) :
    Fixed ((fuseLoop canFuseCopy fuseCopy l).map ces) := by
  have h2 := fuseLoop_mem (can := canFuseCopy) (f := fuseCopy) (R := fun d : CopyDims => d.src.extent = d.dst.extent ∧ 2 ≤ d.dst.extent)
    (fun a b ha hb _ => ⟨by simp [fuseCopy, fuse, ha.1, hb.1], mul_ge_two ha.2 hb.2⟩) l h
  have h3 := fuseLoop_chain canFuseCopy_fuse l
  generalize fuseLoop canFuseCopy fuseCopy l = m at h2 h3
  refine ⟨?_, ?_⟩
  · intro d hd
    obtain ⟨e, he, rfl⟩ := List.mem_map.1 hd
    have := h2 e he
    simp only [ces]; omega
  · rw [List.isChain_map]
    refine h3.imp_of_mem_imp fun a b ha _ hab => ?_
    have := h2 a ha
    simp only [ces]
    intro hc
    rw [Prod.ext_iff] at hc
    simp only [Prod.smul_mk, nsmul_eq_mul] at hc
    rw [Int.natCast_toNat_eq_self.2 (by omega)] at hc
    rw [Bool.eq_false_iff] at hab
    apply hab
    simp only [canFuseCopy, Bool.and_eq_true, beq_iff_eq, canFuse_iff]
    exact ⟨⟨this.1, by rw [this.1, mul_comm]; exact hc.1⟩, by rw [mul_comm]; exact hc.2⟩

/-! ### Copies between equal shapes -/

def twice (d : Dim) : CopyDims := ⟨d, d⟩

theorem bubbleSort_twice (l : List Dim) : bubbleSort copyDimsLt (l.map twice) = (bubbleSort dimLt l).map twice := by
  have inner : ∀ (x : Dim) (l : List Dim), bubbleInner copyDimsLt (twice x) (l.map twice) =
      (twice (bubbleInner dimLt x l).1, (bubbleInner dimLt x l).2.map twice) := by
    intro x l
    induction l generalizing x with
    | nil => rfl
    | cons y ys ih =>
      rw [List.map_cons]
      unfold bubbleInner
      rw [show copyDimsLt (twice y) (twice x) = dimLt y x from rfl]
      split
      · rw [ih]; rfl
      · rw [ih]; rfl
  induction hn : l.length generalizing l with
  | zero => rw [List.length_eq_zero_iff.1 hn, List.map_nil, bubbleSort, bubbleSort]; rfl
  | succ n ih =>
    match l with
    | x :: xs =>
      rw [List.map_cons, bubbleSort, bubbleSort, inner]
      dsimp only
      rw [ih _ (by rw [bubbleInner_length]; simpa using hn), List.map_cons]

theorem fuseLoop_twice (l : List Dim) : fuseLoop canFuseCopy fuseCopy (l.map twice) = (fuseLoop canFuse fuse l).map twice := by
  induction hn : l.length generalizing l with
  | zero => rw [List.length_eq_zero_iff.1 hn, List.map_nil, fuseLoop, fuseLoop]; rfl
  | succ n ih =>
    match l with
    | [d] => rw [List.map_cons, List.map_nil, fuseLoop, fuseLoop]; rfl
    | d0 :: d1 :: ds =>
      rw [List.map_cons, List.map_cons, fuseLoop, fuseLoop]
      have e : canFuseCopy (twice d0) (twice d1) = canFuse d0 d1 := by simp [canFuseCopy, twice]
      rw [e]
      split
      · exact ih (fuse d0 d1 :: ds) (by simpa using hn)
      · have := ih (d1 :: ds) (by simpa using hn)
        rw [List.map_cons] at this
        rw [this]; rfl

theorem optimizeCopyShapes_same (s : Shape) : optimizeCopyShapes s s = (optimizeShape s, optimizeShape s) := by
  have hz : ∀ s : List Dim, List.zipWith CopyDims.mk s s = s.map twice := by
    intro s
    induction s with
    | nil => rfl
    | cons d ds ih => rw [List.zipWith_cons_cons, ih]; rfl
  have key : dynamicOptimizeCopyShapes s s = (dynamicOptimizeShape s, dynamicOptimizeShape s) := by
    unfold dynamicOptimizeCopyShapes dynamicOptimizeShape padTo
    dsimp only
    rw [hz, bubbleSort_twice, fuseLoop_twice]
    simp [twice, Function.comp_def]
  unfold optimizeCopyShapes optimizeShape
  match s with
  | [] => exact key
  | [d] => rfl
  | d :: e :: ds => exact key

end Nda
