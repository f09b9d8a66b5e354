import Verif.Spec.Restrict
import Verif.Props.Pointers
import Verif.Props.Strides
/-
C74: the promise of `__restrict__` in the loops of `copy`, `move` and copies of arrays.
-/
namespace Nda
open Spec

/-! ### The groups are those of the loops -/

theorem groupCalls_append {P : Type} (l m : List (LoopGroup P)) : groupCalls (l ++ m) = groupCalls l ++ groupCalls m := by
  induction l with
  | nil => rfl
  | cons a l ih => cases a <;> simp [groupCalls, ih]

section
variable {P : Type} [PtrPack P]

theorem groupCalls_stride (body : P → List (LoopGroup P)) (st : P) (n : Nat) (p : P) :
    groupCalls (strideGroups body st n p) = strideLoop (fun q => groupCalls (body q)) st n p := by
  induction n generalizing p with
  | zero => rfl
  | succ n ih => rw [strideGroups, strideLoop, groupCalls_append, ih]

theorem groupCalls_value (dims : List (Int × P)) (p : P) : groupCalls (valueGroups dims p) = valueLoop dims p := by
  induction dims generalizing p with
  | nil => rfl
  | cons d rest ih =>
    obtain ⟨e, st⟩ := d
    cases rest with
    | nil =>
      rw [valueGroups, valueLoop]
      split
      · simp [groupCalls]
      · rw [groupCalls_stride]; rfl
    | cons d2 rest =>
      rw [valueGroups, valueLoop, groupCalls_stride]
      · congr 1
        funext q
        exact ih q
      all_goals simp
end

/-- The model with groups makes the calls of the model without. -/
theorem C74_calls (src dst : Shape) (a b : Option Int) : groupCalls (copyGroups src a dst b) = copyForEachValue src a dst b := by
  unfold copyGroups copyForEachValue Shape.inOrderGroups2 Shape.forEachValueInOrder2
  cases a with
  | none => rfl
  | some a =>
    cases b with
    | none => rfl
    | some b => exact groupCalls_value _ _

theorem mem_groupCalls {P : Type} {g : List (LoopGroup P)} {l : List P} (h : .dense l ∈ g) {p : P} (hp : p ∈ l) : p ∈ groupCalls g := by
  induction g with
  | nil => simp at h
  | cons a g ih =>
    rcases List.mem_cons.1 h with h1 | h1
    · subst h1; simp [groupCalls, hp]
    · have := ih h1
      cases a <;> simp [groupCalls, this]

/-! ### Copies between different elements -/

/-- C74: copying or moving between views without a common element keeps the promise. -/
theorem C74_apart (src dst : Shape) (hl : List.length src = List.length dst) (hn : NonNeg dst) (a b : Int) (bs bd : Nat)
    (h : bs = bd → NoCommon src a dst b) : RestrictOk bs bd (copyGroups src (some a) dst (some b)) := by
  intro l hg p hp q hq e
  have h1 := mem_groupCalls hg hp
  have h2 := mem_groupCalls hg hq
  rw [C74_calls, mem_copyForEachValue hl hn] at h1 h2
  obtain ⟨i, hi, rfl⟩ := h1
  obtain ⟨j, hj, rfl⟩ := h2
  simp only [Prod.mk.injEq] at e
  exact h e.1 i j hi hj e.2

/-! ### Copies within one allocation -/

theorem strideGroups_dense (body : Int × Int → List (LoopGroup (Int × Int))) (st : Int) (n : Nat) (p : Int × Int) (l : List (Int × Int)) :
    .dense l ∈ strideGroups body (st, st) n p ↔ ∃ k : Nat, k < n ∧ .dense l ∈ body (p.1 + k * st, p.2 + k * st) := by
  induction n generalizing p with
  | zero => simp [strideGroups]
  | succ n ih =>
    rw [strideGroups, List.mem_append, ih]
    simp only [PtrPack.advance]
    constructor
    · rintro (h | ⟨k, hk, h⟩)
      · exact ⟨0, by omega, by simpa using h⟩
      · refine ⟨k + 1, by omega, ?_⟩
        convert h using 3 <;> push_cast <;> ring
    · rintro ⟨k, hk, h⟩
      cases k with
      | zero => exact Or.inl (by simpa using h)
      | succ k =>
        refine Or.inr ⟨k, by omega, ?_⟩
        convert h using 3 <;> push_cast <;> ring

/-- The rows of a copy between two places with the same strides. -/
def row (e : Int) (q : Int × Int) : List (Int × Int) := (List.range e.toNat).map fun k : Nat => (q.1 + k, q.2 + k)

theorem groups_same (L : List (Int × Int)) (hL : ∀ d ∈ L, 0 < d.1) (p : Int × Int) :
    (∀ l, .dense l ∈ valueGroups (L.map fun d => (d.1, (d.2, d.2))) p →
      ∃ e q, L.getLast? = some (e, 1) ∧ q.2 - q.1 = p.2 - p.1 ∧ l = row e q) ∧
    ∀ e, L.getLast? = some (e, 1) → ∃ q : Int × Int, q.2 - q.1 = p.2 - p.1 ∧
      .dense (row e q) ∈ valueGroups (L.map fun d => (d.1, (d.2, d.2))) p := by
  induction L generalizing p with
  | nil => simp [valueGroups]
  | cons d L ih =>
    obtain ⟨e, st⟩ := d
    have he : 0 < e := hL (e, st) (by simp)
    cases L with
    | cons d2 L =>
      have ih := fun p => ih (fun d hd => hL d (by simp [hd])) p
      rw [List.map_cons, valueGroups, List.getLast?_cons_cons]
      · constructor
        · intro l h
          rw [strideGroups_dense] at h
          obtain ⟨k, hk, h⟩ := h
          obtain ⟨e', q, h1, h2, h3⟩ := (ih _).1 l h
          exact ⟨e', q, h1, by rw [h2]; ring, h3⟩
        · intro e' h
          obtain ⟨q, h1, h2⟩ := (ih p).2 e' h
          exact ⟨q, h1, by rw [strideGroups_dense]; exact ⟨0, by omega, by simpa using h2⟩⟩
      · simp
    | nil =>
      rw [List.map_cons, List.map_nil, valueGroups]
      by_cases hst : st = 1
      · subst hst
        have h1 : PtrPack.allOne ((1, 1) : Int × Int) = true := by decide
        rw [if_pos h1]
        have hrow : denseLoop (PtrPack.ptr0 p + e) p = row e p := by
          rw [denseLoop_eq h1 e.toNat p _ (by simp only [PtrPack.ptr0]; congr 1; ring)]
          unfold row
          apply List.map_congr_left
          intro k _
          ext <;> simp
        constructor
        · intro l h
          simp only [List.mem_singleton, LoopGroup.dense.injEq] at h
          exact ⟨e, p, rfl, rfl, by rw [h, hrow]⟩
        · intro e' h
          simp only [List.getLast?_singleton, Option.some.injEq, Prod.mk.injEq] at h
          obtain ⟨rfl, -⟩ := h
          exact ⟨p, rfl, by rw [hrow]; simp⟩
      · rw [if_neg (by simp only [PtrPack.allOne]; simp [all_iff, hst])]
        constructor
        · intro l h
          rw [strideGroups_dense] at h
          obtain ⟨k, hk, h⟩ := h
          simp at h
        · intro e' h
          simp only [List.getLast?_singleton, Option.some.injEq, Prod.mk.injEq] at h
          exact absurd h.2 hst

theorem restrict_same (L : List (Int × Int)) (hL : ∀ d ∈ L, 0 < d.1) (a b : Int) (blk : Nat) :
    RestrictOk blk blk (valueGroups (L.map fun d => (d.1, (d.2, d.2))) (a, b)) ↔
      ∀ e, L.getLast? = some (e, 1) → e ≤ |b - a| := by
  obtain ⟨h1, h2⟩ := groups_same L hL (a, b)
  constructor
  · intro h e he
    obtain ⟨q, hq, hm⟩ := h2 e he
    dsimp only at hq
    by_contra hlt
    have := abs_lt.1 (not_le.1 hlt)
    rcases le_total 0 (b - a) with hd | hd
    · refine h _ hm (q.1 + ((b - a).toNat : Nat), q.2 + ((b - a).toNat : Nat)) ?_ (q.1 + (0 : Nat), q.2 + (0 : Nat)) ?_ ?_
      · exact List.mem_map.2 ⟨(b - a).toNat, List.mem_range.2 (by omega), rfl⟩
      · exact List.mem_map.2 ⟨0, List.mem_range.2 (by omega), rfl⟩
      · simp only [Prod.mk.injEq, true_and]; omega
    · refine h _ hm (q.1 + (0 : Nat), q.2 + (0 : Nat)) ?_ (q.1 + ((a - b).toNat : Nat), q.2 + ((a - b).toNat : Nat)) ?_ ?_
      · exact List.mem_map.2 ⟨0, List.mem_range.2 (by omega), rfl⟩
      · exact List.mem_map.2 ⟨(a - b).toNat, List.mem_range.2 (by omega), rfl⟩
      · simp only [Prod.mk.injEq, true_and]; omega
  · intro h l hl p hp q hq heq
    obtain ⟨e, r, h3, h4, rfl⟩ := h1 l hl
    have := h e h3
    unfold row at hp hq
    obtain ⟨k, hk, rfl⟩ := List.mem_map.1 hp
    obtain ⟨m, hm, rfl⟩ := List.mem_map.1 hq
    rw [List.mem_range] at hk hm
    simp only [Prod.mk.injEq, true_and] at heq
    dsimp only at h4
    have h5 : |b - a| < e := abs_lt.2 ⟨by omega, by omega⟩
    omega

theorem copyGroups_same (s : Shape) (a b : Int) : copyGroups s (some a) s (some b) =
    valueGroups (((optimizeShape s).map esOf).reverse.map fun d => (d.1, (d.2, d.2))) (a, b) := by
  unfold copyGroups
  rw [optimizeCopyShapes_same]
  dsimp only [Shape.inOrderGroups2]
  have h0 : (optimizeShape s).flatOffset (optimizeShape s).mins = 0 := by
    rw [flatOffset_eq]
    exact offsetOf_mins _
  rw [h0, add_zero, add_zero, List.map_reverse, List.map_map]
  congr 2
  generalize optimizeShape s = t
  induction t with
  | nil => rfl
  | cons d t ih =>
    show (d.extent, (d.stride, d.stride)) :: List.zip (Shape.extents t) (List.zip (Shape.strides t) (Shape.strides t)) = _
    rw [ih]
    rfl

theorem optimized_pos {s : Shape} (hp : Pos s) : Pos (optimizeShape s) := by
  obtain ⟨l, n, ht, hperm, -⟩ := optimized_dims s
  rw [ht]
  intro d hd
  rcases List.mem_append.1 hd with hd | hd
  · exact (fuse_strides l).2.2 (fun d hd => hp d (hperm.mem_iff.1 hd)) d hd
  · rw [(List.mem_replicate.1 hd).2]; decide

theorem restrict_copy_same (s : Shape) (hp : Pos s) (a b : Int) (blk : Nat) :
    RestrictOk blk blk (copyGroups s (some a) s (some b)) ↔
      ∀ d, (optimizeShape s).head? = some d → d.stride = 1 → d.extent ≤ |b - a| := by
  rw [copyGroups_same, restrict_same]
  · rw [List.getLast?_reverse, List.head?_map]
    cases (optimizeShape s).head? with
    | none => simp
    | some d =>
      simp only [Option.map_some, Option.some.injEq, esOf, Prod.mk.injEq, forall_eq', and_imp]
  · intro d hd
    rw [List.mem_reverse] at hd
    obtain ⟨e, he, rfl⟩ := List.mem_map.1 hd
    exact optimized_pos hp e he

/-- C74 does not hold for copying or moving a view to itself, `copy(a, a)`, if the smallest stride of the view is 1, which is so for
all dense arrays. -/
theorem C74_self (s : Shape) (hp : Pos s) (a : Int) (blk : Nat) :
    RestrictOk blk blk (copyGroups s (some a) s (some a)) ↔ ¬ ((∃ d ∈ s, d.stride = 1) ∧ ∀ d ∈ s, 1 ≤ d.stride) := by
  rw [restrict_copy_same s hp]
  obtain ⟨l, n, ht, hperm, hsort⟩ := optimized_dims s
  obtain ⟨hfs, hfh, hfp⟩ := fuse_strides l
  cases l with
  | nil =>
    have : s = [] := hperm.symm.eq_nil
    subst this
    simp [optimizeShape, dynamicOptimizeShape, bubbleSort, fuseLoop, padTo]
  | cons d l =>
    rw [List.pairwise_cons] at hsort
    have hd : d ∈ s := hperm.mem_iff.1 (by simp)
    cases hf : fuseLoop canFuse fuse (d :: l) with
    | nil => rw [hf] at hfh; simp at hfh
    | cons f fl =>
      rw [hf] at hfh hfp
      simp only [List.head?_cons, Option.map_some, Option.some.injEq] at hfh
      have hfpos : 0 < f.extent := hfp (fun e he => hp e (hperm.mem_iff.1 he)) f (by simp)
      rw [ht, hf]
      simp only [List.cons_append, List.head?_cons, Option.some.injEq, forall_eq', sub_self, abs_zero]
      constructor
      · rintro h ⟨⟨e, he, he1⟩, hall⟩
        have h1 := hall d hd
        have h2 : d.stride ≤ e.stride := by
          rcases List.mem_cons.1 (hperm.mem_iff.2 he) with rfl | h
          · exact le_refl _
          · exact hsort.1 e h
        have := h (by omega)
        omega
      · intro h h1
        exfalso
        refine h ⟨⟨d, hd, by omega⟩, fun e he => ?_⟩
        rcases List.mem_cons.1 (hperm.mem_iff.2 he) with rfl | h
        · omega
        · have := hsort.1 e h
          omega

/-! ### Dense arrays -/

theorem bubbleInner_sorted {x : Dim} {l : List Dim} (h : ∀ y ∈ l, x.stride ≤ y.stride) : bubbleInner dimLt x l = (x, l) := by
  induction l with
  | nil => rfl
  | cons y l ih =>
    have h1 := h y (by simp)
    rw [bubbleInner, if_neg (by unfold dimLt; simp only [decide_eq_true_eq]; omega)]
    dsimp only
    rw [ih fun z hz => h z (by simp [hz])]

theorem bubbleSort_of_sorted {l : List Dim} (h : l.Pairwise fun a b : Dim => a.stride ≤ b.stride) : bubbleSort dimLt l = l := by
  induction l with
  | nil => rw [bubbleSort]
  | cons x l ih =>
    rw [List.pairwise_cons] at h
    rw [bubbleSort, bubbleInner_sorted h.1]
    dsimp only
    rw [ih h.2]

theorem fuse_prodStrides (m e c : Int) (l : List Dim) :
    ∃ m', fuseLoop canFuse fuse (⟨m, e, c⟩ :: prodStrides (c * e) l) = [⟨m', e * (l.map Dim.extent).prod, c⟩] := by
  induction l generalizing m e with
  | nil => exact ⟨m, by simp [prodStrides, fuseLoop]⟩
  | cons d l ih =>
    obtain ⟨m', h⟩ := ih (m + d.min * e) (e * d.extent)
    refine ⟨m', ?_⟩
    rw [prodStrides, fuseLoop, if_pos (by simp [canFuse])]
    rw [List.map_cons, List.prod_cons, ← mul_assoc, ← h, fuse]
    congr 3
    ring

theorem extents_prod_pos {s : List Dim} (h : Pos s) : 0 < (s.map Dim.extent).prod := by
  induction s with
  | nil => decide
  | cons d s ih =>
    rw [pos_cons] at h
    rw [List.map_cons, List.prod_cons]
    exact Int.mul_pos h.1 (ih h.2)

/-- C74 for arrays whose strides were left to the library: a copy between two places with the shape of such an array keeps the promise
exactly if they have no common element. -/
theorem C74_dense (s : Shape) (hpos : Pos s) (hne : s ≠ []) (hu : ∀ d ∈ s, ¬ Known d)
    (hfit : (s.map Dim.extent).prod ≤ 9223372036854775807) (a b : Int) (blk : Nat) :
    RestrictOk blk blk (copyGroups s.resolve (some a) s.resolve (some b)) ↔ NoCommon s.resolve a s.resolve b := by
  obtain ⟨hcov, -, -, -⟩ := C05_dense s hpos hu hfit
  have hres := resolve_prod hpos hu hfit
  have hp' : Pos s.resolve := by rw [hres]; exact prodStrides_pos hpos
  have hsz : (Shape.size s.resolve : Int) = (s.map Dim.extent).prod := by
    rw [size_eq, hres, show (prodStrides 1 s).map Dim.extent = s.map Dim.extent from prodStrides_extents 1 s]
    have := extents_prod_pos hpos
    omega
  rw [hsz] at hcov
  rw [restrict_copy_same _ hp']
  have hhead : ∃ m, (optimizeShape s.resolve).head? = some ⟨m, (s.map Dim.extent).prod, 1⟩ := by
    rw [hres]
    match s, hne with
    | [d], _ => exact ⟨d.min, by simp [prodStrides, optimizeShape]⟩
    | d :: d2 :: l, _ =>
      obtain ⟨m', h⟩ := fuse_prodStrides d.min d.extent 1 (d2 :: l)
      refine ⟨m', ?_⟩
      have hb := bubbleSort_of_sorted (prodStrides_sorted (c := 1) (by omega) hpos).1
      have e : prodStrides 1 (d :: d2 :: l) = ⟨d.min, d.extent, 1⟩ :: prodStrides (1 * d.extent) (d2 :: l) := rfl
      show (dynamicOptimizeShape (prodStrides 1 (d :: d2 :: l))).head? = _
      unfold dynamicOptimizeShape padTo
      rw [hb, e, h]
      simp
  obtain ⟨m, hm⟩ := hhead
  rw [hm]
  simp only [Option.some.injEq, forall_eq', forall_const]
  have hP := extents_prod_pos hpos
  generalize (s.map Dim.extent).prod = n at *
  constructor
  · intro h i j hi hj e
    have h1 := (hcov _).1 ⟨i, hi, rfl⟩
    have h2 := (hcov _).1 ⟨j, hj, rfl⟩
    have : |b - a| < n := abs_lt.2 ⟨by omega, by omega⟩
    omega
  · intro h
    by_contra hlt
    have := abs_lt.1 (not_le.1 hlt)
    rcases le_total 0 (b - a) with hd | hd
    · obtain ⟨i, hi, ei⟩ := (hcov (b - a)).2 (by omega)
      obtain ⟨j, hj, ej⟩ := (hcov 0).2 (by omega)
      exact h i j hi hj (by omega)
    · obtain ⟨i, hi, ei⟩ := (hcov 0).2 (by omega)
      obtain ⟨j, hj, ej⟩ := (hcov (a - b)).2 (by omega)
      exact h i j hi hj (by omega)

/-! ### Programs -/

variable {V : Type}

/-- C74 for the arrays of a program: every copy or move between different arrays, or between views of one array without a common
element, keeps the promise.  The copies made by constructors and assignments are between different arrays. -/
theorem C74_program (ty : Types V) (hdef : TypesOk ty) (w : World V) (hw : Reachable ty w) (y x : Nat) (o a : Arr) (bs bd : Nat)
    (ps pd : Int) (ho : w.vars y = some o) (ha : w.vars x = some a) (hos : o.base = some (bs, ps)) (had : a.base = some (bd, pd))
    (src dst : Shape) (soff doff : Int) (hl : List.length src = List.length dst) (hn : NonNeg dst)
    (h : y = x → NoCommon src soff dst doff) : RestrictOk bs bd (copyGroups src (some (ps + soff)) dst (some (pd + doff))) := by
  have hI := hw.inv hdef
  apply C74_apart src dst hl hn
  intro hb
  subst hb
  have hyx : y = x := by
    rcases (hI.good y o ho).own with ⟨h1, _⟩ | ⟨b1, blk1, h1, _⟩
    · rw [h1.base] at hos; simp at hos
    · rcases (hI.good x a ha).own with ⟨h2, _⟩ | ⟨b2, blk2, h2, _⟩
      · rw [h2.base] at had; simp at had
      · have e1 := h1.base
        have e2 := h2.base
        rw [hos] at e1
        rw [had] at e2
        simp only [Option.some.injEq, Prod.mk.injEq] at e1 e2
        exact hI.disj y x o a bs 0 0 ho ha (by rw [h1.buffer, e1.1]) (by rw [h2.buffer, e2.1])
  subst hyx
  rw [ho] at ha
  simp only [Option.some.injEq] at ha
  subst ha
  rw [hos] at had
  simp only [Option.some.injEq, Prod.mk.injEq, true_and] at had
  subst had
  intro i j hi hj e
  exact h rfl i j hi hj (by omega)

/-! ### Examples -/

/-- Copying the first to the second row of a 2×3 array with rows of stride 1, and copying the array to itself. -/
example : copyGroups [⟨0, 3, 1⟩] (some 0) [⟨0, 3, 1⟩] (some 3) = [.dense [(0, 3), (1, 4), (2, 5)]] := by decide +kernel
example : NoCommon [⟨0, 3, 1⟩] 0 [⟨0, 3, 1⟩] 3 := by
  intro i j hi hj
  match i, j, hi, hj with
  | [i], [j], hi, hj =>
    simp only [InBox, offsetOf, and_true] at *
    omega
example : RestrictOk 0 0 (copyGroups [⟨0, 3, 1⟩] (some 0) [⟨0, 3, 1⟩] (some 3)) := by
  rw [restrict_copy_same _ (by unfold Pos; decide)]; intro d hd; simp only [optimizeShape, List.head?_cons, Option.some.injEq] at hd; subst hd; decide

/-- C74 fails for `copy(a, a)` with a dense array, and for moving part of a vector by one element; with every other column of a matrix
it holds, since the inner loop is another one. -/
theorem C74_counterexample :
    ¬ RestrictOk 0 0 (copyGroups [⟨0, 3, 2⟩, ⟨0, 2, 1⟩] (some 0) [⟨0, 3, 2⟩, ⟨0, 2, 1⟩] (some 0)) ∧
    ¬ RestrictOk 0 0 (copyGroups [⟨0, 3, 1⟩] (some 0) [⟨0, 3, 1⟩] (some 1)) ∧
    RestrictOk 0 0 (copyGroups [⟨0, 3, 6⟩, ⟨0, 3, 2⟩] (some 0) [⟨0, 3, 6⟩, ⟨0, 3, 2⟩] (some 0)) := by
  refine ⟨?_, ?_, ?_⟩
  · rw [C74_self _ (by unfold Pos; decide)]; decide
  · rw [restrict_copy_same _ (by unfold Pos; decide)]; intro h; exact absurd (h _ rfl rfl) (by decide)
  · rw [C74_self _ (by unfold Pos; decide)]; decide

end Nda
