import Verif.Props.EinDoc
import Verif.Props.EinSum
import Mathlib.Algebra.Order.Ring.Int
/-
C41–C43: the negative part of C42 and concrete cases.
-/
namespace Nda
open Spec

/-- C42, negative part: an operand that repeats a loop index is checked only for the first dim with
this index.  The trace of a 2×1 matrix passes all checks and reads `A(1, 1)`. -/
theorem C42_repeat_counterexample :
    let A : EinOp Int := ⟨.arr (some 0) [⟨⟨-9, -9, -9⟩, ⟨0, 2, 1⟩⟩, ⟨⟨-9, -9, -9⟩, ⟨0, 1, 2⟩⟩], [0, 0]⟩
    let tr : EinOp Int := ⟨.arr (some 100) [], []⟩
    OpTyped A ∧ NonNeg (einDims A.op) ∧ einAssert tr (.op A) = true ∧
    (einLoopShape tr (.op A)).forEachIndex = some [[0], [1]] ∧ ¬ OpInRange A [1] := by
  intro A tr
  refine ⟨⟨rfl, ?_⟩, ?_, by decide +kernel, ?_, ?_⟩
  · simp [Fits, Describes]
  · intro d hd
    simp only [A, einDims, List.map_cons, List.map_nil, List.mem_cons, List.not_mem_nil, or_false] at hd
    rcases hd with rfl | rfl <;> decide
  · rw [forEachIndex_eq]
    · decide +kernel
    · intro d hd
      have : einLoopShape tr (.op A) = [⟨0, 2, 0⟩] := by decide +kernel
      rw [this] at hd
      simp only [List.mem_cons, List.not_mem_nil, or_false] at hd
      subst hd; decide
  · rintro ⟨_, h, _⟩
    revert h
    decide

/-- The type `dim<>`: nothing is a compile-time constant. -/
def anyDim : DimT := ⟨-9, -9, -9⟩

theorem goodDim_any (d : Dim) (h : 0 ≤ d.extent) : GoodDim ⟨anyDim, d⟩ := by
  refine ⟨?_, h⟩
  simp [Fits, Describes, anyDim]

/- A 2×3 matrix at 0 (`A(x, y) = x + 2 y`), a 3×2 matrix at 6 (`B(x, y) = 6 + x + 3 y`), stored one
after the other; the result at 12 holds 100 everywhere. -/
example : ∃ m', einReduce (· + ·) (einMat 12 ⟨anyDim, ⟨0, 2, 1⟩⟩ ⟨anyDim, ⟨0, 2, 2⟩⟩ 0 1)
    (.binary (· * ·) (.op (einMat 0 ⟨anyDim, ⟨0, 2, 1⟩⟩ ⟨anyDim, ⟨0, 3, 2⟩⟩ 0 2))
      (.op (einMat 6 ⟨anyDim, ⟨0, 3, 1⟩⟩ ⟨anyDim, ⟨0, 2, 3⟩⟩ 2 1)))
    (fun a => if a < 12 then a else 100) = some m' ∧
    m' 12 = 100 + (0 * 6 + 2 * 7 + 4 * 8) ∧ m' 15 = 100 + (1 * 9 + 3 * 10 + 5 * 11) ∧ m' 16 = 100 := by
  have hd : ∀ a b c : Int, 0 ≤ b → GoodDim ⟨anyDim, ⟨a, b, c⟩⟩ := fun a b c h => goodDim_any _ h
  obtain ⟨m', h, hs, hf⟩ := C41_matrix_product (α := Int) 0 1 2 (by decide) (by decide) (by decide) 12 0 6
    ⟨anyDim, ⟨0, 2, 1⟩⟩ ⟨anyDim, ⟨0, 2, 2⟩⟩ ⟨anyDim, ⟨0, 2, 1⟩⟩ ⟨anyDim, ⟨0, 3, 2⟩⟩
    ⟨anyDim, ⟨0, 3, 1⟩⟩ ⟨anyDim, ⟨0, 2, 3⟩⟩
    (by
      intro d hd'
      simp only [List.mem_cons, List.not_mem_nil, or_false] at hd'
      rcases hd' with rfl | rfl | rfl | rfl | rfl | rfl <;> exact hd _ _ _ (by decide))
    ⟨rfl, rfl⟩ ⟨rfl, rfl⟩ ⟨rfl, rfl⟩
    (by
      have hbox : ∀ a b c d : Int, ∀ i, InBox [⟨0, a, b⟩, ⟨0, c, d⟩] i →
          ∃ x y, i = [x, y] ∧ 0 ≤ x ∧ x < a ∧ 0 ≤ y ∧ y < c := by
        intro a b c d i hi
        match i, hi with
        | [x, y], ⟨h1, h2, _⟩ =>
          exact ⟨x, y, rfl, by simpa using h1.1, by simpa using h1.2, by simpa using h2.1, by simpa using h2.2⟩
      constructor
      · intro i j hi hj he
        obtain ⟨x, y, rfl, _⟩ := hbox _ _ _ _ i hi
        obtain ⟨x', y', rfl, _⟩ := hbox _ _ _ _ j hj
        simp only [einMat, einDims, List.map_cons, List.map_nil, offsetOf] at he
        have h1 : x = x' := by omega
        have h2 : y = y' := by omega
        rw [h1, h2]
      · rintro o ho a ⟨b, i, h1, hi, rfl⟩ hoa
        obtain ⟨x, y, rfl, _⟩ := hbox _ _ _ _ i hi
        simp only [Option.some.injEq] at h1
        simp only [leaves, List.cons_append, List.nil_append, List.mem_cons, List.not_mem_nil, or_false] at ho
        rcases ho with rfl | rfl
        all_goals
          obtain ⟨b', j, h1', hj, he⟩ := hoa
          simp only [Option.some.injEq] at h1'
          obtain ⟨x', y', rfl, _⟩ := hbox _ _ _ _ j hj
          simp only [List.map_cons, List.map_nil, offsetOf] at he
          omega)
    (fun a => if a < 12 then a else 100)
  refine ⟨m', h, ?_, ?_, ?_⟩
  · have := hs 0 0 ⟨by decide, by decide⟩ ⟨by decide, by decide⟩
    simp only [matAt] at this
    rw [show m' 12 = m' (12 + (0 - 0) * 1 + (0 - 0) * 2) from rfl, this]
    decide +kernel
  · have := hs 1 1 ⟨by decide, by decide⟩ ⟨by decide, by decide⟩
    simp only [matAt] at this
    rw [show m' 15 = m' (12 + (1 - 0) * 1 + (1 - 0) * 2) from rfl, this]
    decide +kernel
  · rw [hf 16]
    · rfl
    · rintro ⟨b, i, h1, hi, he⟩
      match i, hi with
      | [x, y], ⟨h1', h2', _⟩ =>
        simp only [Option.some.injEq] at h1
        simp only [List.map_cons, List.map_nil, offsetOf] at he
        simp only at h1' h2'
        omega

/-- `make_ein_sum<int, 0>(ein<0, 1>(A))` infers a dense vector of the first extent of `A`. -/
example : let A : EinExpr Int := .op (einMat 0 ⟨anyDim, ⟨5, 2, 1⟩⟩ ⟨anyDim, ⟨0, 3, 2⟩⟩ 0 1)
    (makeEinReduceShape [0] A).map SDim.val = [⟨5, 2, 1⟩] ∧
    (makeEinReduceShape [1, 0] A).map SDim.val = [⟨0, 3, 1⟩, ⟨5, 2, 3⟩] ∧
    firstUse 1 (leaves A) = some ⟨0, 3, 2⟩ := by
  refine ⟨by decide +kernel, by decide +kernel, by decide +kernel⟩

/-- The row sums of a 2×3 matrix, by `make_ein_sum<int, 0>(ein<0, 1>(A), 100)`. -/
example : ∃ dims base m', makeEinSum (· + ·) [0]
      (.op (einMat 0 ⟨anyDim, ⟨5, 2, 1⟩⟩ ⟨anyDim, ⟨0, 3, 2⟩⟩ 0 1)) 100 50 (fun a => a) =
        some (dims, base, m') ∧ m' 50 = 100 + (0 + 2 + 4) ∧ m' 51 = 100 + (1 + 3 + 5) ∧ m' 52 = 52 := by
  have hsh : makeEinReduceShape [0] (.op (einMat 0 ⟨anyDim, ⟨5, 2, 1⟩⟩ ⟨anyDim, ⟨0, 3, 2⟩⟩ 0 1) : EinExpr Int) =
      [⟨⟨-9, -9, 1⟩, ⟨5, 2, 1⟩⟩] := by decide +kernel
  have hlv : ∀ o ∈ leaves (.op (einMat 0 ⟨anyDim, ⟨5, 2, 1⟩⟩ ⟨anyDim, ⟨0, 3, 2⟩⟩ 0 1) : EinExpr Int),
      o = einMat 0 ⟨anyDim, ⟨5, 2, 1⟩⟩ ⟨anyDim, ⟨0, 3, 2⟩⟩ 0 1 := by
    intro o ho; simpa [leaves] using ho
  have hty := typed_mat (α := Int) (b := 0) (i := 0) (j := 1) (goodDim_any ⟨5, 2, 1⟩ (by decide))
    (goodDim_any ⟨0, 3, 2⟩ (by decide))
  obtain ⟨dims, base, m', hm', hshape, hval, hframe⟩ := C43_value (α := Int) [0]
    (.op (einMat 0 ⟨anyDim, ⟨5, 2, 1⟩⟩ ⟨anyDim, ⟨0, 3, 2⟩⟩ 0 1)) 100 50 (fun a => a)
    (by intro o ho; rw [hlv o ho]; exact hty.1)
    (by
      intro k hk
      simp only [List.mem_cons, List.not_mem_nil, or_false] at hk
      subst hk
      exact ⟨_, List.mem_singleton.2 rfl, uses_mat.2 (Or.inl rfl)⟩)
    (by intro o ho; rw [hlv o ho]; exact hty.2.1)
    (by intro o ho; rw [hlv o ho]; exact C42_no_repeat _ (by simp [einMat]))
    (by intro o ho; rw [hlv o ho]; exact hty.2.2)
    (by rw [hsh]; decide +kernel)
    (by
      intro o ho a h1 h2 hoa
      rw [hlv o ho] at hoa
      obtain ⟨b, i, hb, hi, rfl⟩ := hoa
      match i, hi with
      | [x, y], ⟨h1', h2', _⟩ =>
        simp only [Option.some.injEq] at hb
        simp only [List.map_cons, List.map_nil, offsetOf] at h1
        simp only at h1' h2'
        omega)
    (by rw [hsh]; decide +kernel)
  have hd : dims = [⟨⟨-9, -9, 1⟩, ⟨5, 2, 1⟩⟩] ∧ base = 50 := by
    have := congrArg (Option.map fun t => (t.1, t.2.1)) hm'
    unfold makeEinSum at this
    simp only [hsh, Option.map_some] at this
    generalize einReduce _ _ _ _ = oo at this
    cases oo with
    | none => simp at this
    | some mm =>
      simp only [Option.bind_eq_bind, Option.bind_some, Option.pure_def, Option.map_some,
        Option.some.injEq, Prod.mk.injEq] at this
      refine ⟨this.1.symm, this.2.symm.trans ?_⟩
      decide +kernel
  obtain ⟨rfl, rfl⟩ := hd
  have hloop : ∀ x : Int, 5 ≤ x → x < 7 → ∀ i : Index,
      i ∈ [[x, 0], [x, 1], [x, 2]] ↔ LoopIndex (leaves (.op (einMat 0 ⟨anyDim, ⟨5, 2, 1⟩⟩ ⟨anyDim, ⟨0, 3, 2⟩⟩ 0 1) :
        EinExpr Int)) i ∧ pick [0] i = [x] := by
    intro x h1 h2 i
    have hr : loopRank (leaves (.op (einMat 0 ⟨anyDim, ⟨5, 2, 1⟩⟩ ⟨anyDim, ⟨0, 3, 2⟩⟩ 0 1) : EinExpr Int)) = 2 := by
      decide +kernel
    unfold LoopIndex
    rw [hr]
    constructor
    · intro hi
      have : ∃ y : Int, i = [x, y] ∧ 0 ≤ y ∧ y < 3 := by
        simp only [List.mem_cons, List.not_mem_nil, or_false] at hi
        rcases hi with rfl | rfl | rfl
        · exact ⟨0, rfl, by decide, by decide⟩
        · exact ⟨1, rfl, by decide, by decide⟩
        · exact ⟨2, rfl, by decide, by decide⟩
      obtain ⟨y, rfl, hy⟩ := this
      refine ⟨⟨rfl, ?_, ?_⟩, rfl⟩
      · intro o ho
        rw [hlv o ho]
        refine ⟨⟨?_, ?_⟩, ⟨?_, ?_⟩, trivial⟩ <;> simp <;> omega
      · intro k hk hn
        refine absurd ?_ (hn _ (List.mem_singleton.2 rfl))
        rw [uses_mat]
        omega
    · rintro ⟨⟨hl, hin, _⟩, hp⟩
      match i, hl with
      | [x', y], _ =>
        have := hin _ (List.mem_singleton.2 rfl)
        obtain ⟨_, h4, _⟩ := this
        simp only [pick, List.map_cons, List.map_nil, List.cons.injEq, and_true] at hp
        simp at hp h4
        subst hp
        have : y = 0 ∨ y = 1 ∨ y = 2 := by omega
        rcases this with rfl | rfl | rfl <;> simp
  refine ⟨_, _, m', hm', ?_, ?_, ?_⟩
  · have := (hval [5] ⟨⟨by decide, by decide⟩, trivial⟩).2.2 [[5, 0], [5, 1], [5, 2]] (by decide)
      (hloop 5 (by decide) (by decide))
    exact this.trans (by decide +kernel)
  · have := (hval [6] ⟨⟨by decide, by decide⟩, trivial⟩).2.2 [[6, 0], [6, 1], [6, 2]] (by decide)
      (hloop 6 (by decide) (by decide))
    exact this.trans (by decide +kernel)
  · exact hframe 52 (by decide)

end Nda
