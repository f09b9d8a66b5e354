import Verif.Props.EinPrograms
import Verif.Props.EinExamples
import Mathlib.RingTheory.RootsOfUnity.Complex
/-
C96: where the program of README.md is wrong, and examples.
-/
namespace Nda
open Spec

/-- C96, negative part: the program of README.md:306-310 (and test/readme.cpp:185-189) starts with zeros in `max_xy`,
and so does not compute the maximum of a plane of negative elements.  (A volume of extents 2, 1, 2 at 0; its planes
have the elements -3, -1 and -2, 4.) -/
theorem C96_max_counterexample :
    let v : EinOp Int := einVol 0 ⟨anyDim, ⟨0, 2, 1⟩⟩ ⟨anyDim, ⟨0, 1, 2⟩⟩ ⟨anyDim, ⟨0, 2, 2⟩⟩ 0 1 2
    let r : EinOp Int := einVec 10 ⟨anyDim, ⟨0, 2, 1⟩⟩ 2
    let m : Mem Int := fun a => if a = 0 then -3 else if a = 1 then -1 else if a = 2 then -2 else if a = 3 then 4 else 0
    (planeMax r v m).map (fun m => (m 10, m 11)) = some (0, 4) := by
  intro v r m
  unfold planeMax einReduce
  have e : einLoopShape r (.binary max (.op r) (.op v)) = [⟨0, 2, 0⟩, ⟨0, 1, 0⟩, ⟨0, 2, 1⟩] := by decide +kernel
  rw [e, forEachIndex_eq (by simp [NonNeg])]
  decide +kernel

/-- The same volume with -100 in `max_xy`. -/
example :
    let v : EinOp Int := einVol 0 ⟨anyDim, ⟨0, 2, 1⟩⟩ ⟨anyDim, ⟨0, 1, 2⟩⟩ ⟨anyDim, ⟨0, 2, 2⟩⟩ 0 1 2
    let r : EinOp Int := einVec 10 ⟨anyDim, ⟨0, 2, 1⟩⟩ 2
    let m : Mem Int := fun a => if a = 0 then -3 else if a = 1 then -1 else if a = 2 then -2 else if a = 3 then 4 else -100
    (planeMax r v m).map (fun m => (m 10, m 11)) = some (-1, 4) := by
  intro v r m
  unfold planeMax einReduce
  have e : einLoopShape r (.binary max (.op r) (.op v)) = [⟨0, 2, 0⟩, ⟨0, 1, 0⟩, ⟨0, 2, 1⟩] := by decide +kernel
  rw [e, forEachIndex_eq (by simp [NonNeg])]
  decide +kernel

example : [epsilonOf [0, 1, 2, 3], epsilonOf [1, 0, 2, 3], epsilonOf [3, 0, 1, 2], epsilonOf [0, 1, 0, 3],
    epsilonOf [5, -2, 7]] = [1, -1, -1, 0, -1] := by decide

/-- The indices of a matrix. -/
theorem box2_elim {a b c d e f : Int} {i : Index} (h : InBox [⟨a, b, c⟩, ⟨d, e, f⟩] i) :
    ∃ x y, i = [x, y] ∧ a ≤ x ∧ x < a + b ∧ d ≤ y ∧ y < d + e := by
  match i, h with
  | [x, y], ⟨h1, h2, _⟩ => exact ⟨x, y, rfl, h1.1, h1.2, h2.1, h2.2⟩

theorem box1_elim {a b c : Int} {i : Index} (h : InBox [⟨a, b, c⟩] i) : ∃ x, i = [x] ∧ a ≤ x ∧ x < a + b := by
  match i, h with
  | [x], ⟨h1, _⟩ => exact ⟨x, rfl, h1.1, h1.2⟩

/-- The elements of a matrix whose columns follow each other. -/
theorem element_columns {b r n : Int} {i j : Nat} {α : Type} {p : Int}
    (h : OpElement (einMat b ⟨anyDim, ⟨0, r, 1⟩⟩ ⟨anyDim, ⟨0, n, r⟩⟩ i j : EinOp α) p) :
    ∃ x y, 0 ≤ x ∧ x < r ∧ 0 ≤ y ∧ y < n ∧ p = b + x + y * r := by
  obtain ⟨b', u, h1, hu, rfl⟩ := h
  cases h1
  obtain ⟨x, y, rfl, h⟩ := box2_elim hu
  exact ⟨x, y, by omega, by omega, by omega, by omega, by simp [offsetOf]; ring⟩

theorem element_row {b s n : Int} {i : Nat} {α : Type} {p : Int}
    (h : OpElement (einVec b ⟨anyDim, ⟨s, n, 1⟩⟩ i : EinOp α) p) : b ≤ p ∧ p < b + n := by
  obtain ⟨b', u, h1, hu, rfl⟩ := h
  cases h1
  obtain ⟨x, rfl, h⟩ := box1_elim hu
  simp [offsetOf]
  omega

/-- Cross products of `n` pairs of vectors, stored one after the other: `C96_cross` applies. -/
example (n : Int) (hn : 0 ≤ n) (m : Mem Int) :
    let d : SDim := ⟨anyDim, ⟨0, 3, 1⟩⟩
    let e : SDim := ⟨anyDim, ⟨0, n, 3⟩⟩
    ∃ m', einReduce (· + ·) (einMat 0 d e 0 3)
        (crossExpr (.arr (some (3 * n)) [d, e]) (.arr (some (6 * n)) [d, e]) 0 1 2 3) m = some m' ∧
      ∀ t, 0 ≤ t → t < n → m' (3 * t) = m (3 * t) +
        (m (3 * n + 1 + 3 * t) * m (6 * n + 2 + 3 * t) - m (3 * n + 2 + 3 * t) * m (6 * n + 1 + 3 * t)) := by
  intro d e
  obtain ⟨m', h, hs, -⟩ := C96_cross (α := Int) 0 1 2 3 (by decide) 0 (3 * n) (6 * n) d e d e d e
    (by
      intro x hx
      simp only [List.mem_cons, List.not_mem_nil, or_false] at hx
      rcases hx with rfl | rfl | rfl | rfl | rfl | rfl <;> exact goodDim_any _ (by first | decide | exact hn))
    ⟨⟨rfl, rfl⟩, ⟨rfl, rfl⟩, ⟨rfl, rfl⟩⟩ ⟨rfl, rfl⟩ ⟨rfl, rfl⟩
    (by
      constructor
      · intro i j hi hj he
        obtain ⟨x, y, rfl, _⟩ := box2_elim hi
        obtain ⟨x', y', rfl, _⟩ := box2_elim hj
        simp only [einMat, einDims, List.map_cons, List.map_nil, offsetOf, d, e] at he
        have h1 : x = x' := by omega
        have h2 : y = y' := by omega
        rw [h1, h2]
      · intro o ho a h1 h2
        obtain ⟨x, y, _, _, _, _, rfl⟩ := element_columns h1
        have ho : o = ⟨.fn (fn3 fun a b c => (epsilon3Of a b c : Int)), [0, 1, 2]⟩ ∨ o = einMat (3 * n) d e 1 3 ∨
          o = einMat (6 * n) d e 2 3 := by
          simpa [leaves, crossExpr, einMat] using ho
        rcases ho with rfl | rfl | rfl
        · exact h2
        · obtain ⟨x', y', _, _, _, _, h⟩ := element_columns h2
          omega
        · obtain ⟨x', y', _, _, _, _, h⟩ := element_columns h2
          omega) m
  refine ⟨m', h, fun t h0 h1 => ?_⟩
  have := (hs t ⟨h0, by simpa [e] using h1⟩).1
  simp only [matAt, d, e] at this
  ring_nf at this ⊢
  exact this

/-- Two transforms of two rational numbers: `C96_dft_inverse` applies. -/
example (m : Mem Rat) (h0 : m 6 = 0 ∧ m 7 = 0) :
    let d : SDim := ⟨anyDim, ⟨0, 2, 1⟩⟩
    let e : SDim := ⟨anyDim, ⟨0, 2, 2⟩⟩
    ∃ m1 m2, dft (-1) 0 [d, e] (einVec 4 d 1) (einVec 6 d 0) 0 1 m = some m1 ∧
      dft (-1)⁻¹ 0 [d, e] (einVec 6 d 0) (einVec 8 d 1) 1 0 m1 = some m2 ∧
      m2 8 = m 8 + 2 * m 4 ∧ m2 9 = m 9 + 2 * m 5 := by
  intro d e
  have hok : ∀ (x X : Int) (j k : Nat), j ≠ k → 4 ≤ x → 4 ≤ X → (x + 2 ≤ X ∨ X + 2 ≤ x) → DftOk 0 x X d e d d j k Rat := by
    intro x X j k hjk hx hX hxX
    refine ⟨?_, ⟨rfl, rfl⟩, ⟨rfl, rfl⟩, hjk, ?_, ⟨?_, ?_⟩, ?_⟩
    · intro y hy
      simp only [List.mem_cons, List.not_mem_nil, or_false] at hy
      rcases hy with rfl | rfl | rfl | rfl <;> exact goodDim_any _ (by decide)
    · intro i j hi hj he
      obtain ⟨x, y, rfl, _⟩ := box2_elim hi
      obtain ⟨x', y', rfl, _⟩ := box2_elim hj
      simp only [offsetOf, d, e] at he
      have h1 : x = x' := by omega
      have h2 : y = y' := by omega
      rw [h1, h2]
    · intro i j hi hj he
      obtain ⟨x, rfl, _⟩ := box1_elim hi
      obtain ⟨x', rfl, _⟩ := box1_elim hj
      simp only [einVec, einDims, List.map_cons, List.map_nil, offsetOf, d] at he
      have h1 : x = x' := by omega
      rw [h1]
    · intro o ho p h1 h2
      have := element_row h1
      have ho : o = einMat 0 d e j k ∨ o = einVec x d k := by simpa [leaves] using ho
      rcases ho with rfl | rfl
      · obtain ⟨x', y', _, _, _, _, h⟩ := element_columns h2
        omega
      · have := element_row h2
        omega
    · intro p h1 h2
      have := element_row h2
      obtain ⟨x', y', _, _, _, _, h⟩ := element_columns h1
      omega
  obtain ⟨m1, m2, e1, e2, h⟩ := C96_dft_inverse (-1 : Rat) 2 (IsPrimitiveRoot.neg_one 0 (by decide)) 0 1 0 0 4 6 8
    d e d e d d d (hok 4 6 0 1 (by decide) (by decide) (by decide) (by decide))
    (hok 6 8 1 0 (by decide) (by decide) (by decide) (by decide)) rfl rfl ⟨rfl, rfl⟩ m
    (by
      rintro a ⟨h1, h2⟩
      have : a = 0 ∨ a = 1 := by simp [d] at h1 h2; omega
      rcases this with rfl | rfl
      · exact h0.1
      · exact h0.2)
    (fun p hp => by
      have := element_row hp
      refine ⟨fun h => ?_, fun h => ?_⟩
      · obtain ⟨x', y', _, _, _, _, h⟩ := element_columns h
        omega
      · have := element_row h
        omega)
  refine ⟨m1, m2, e1, e2, ?_, ?_⟩
  · have := h 0 ⟨by decide, by decide⟩
    simpa [vecAt, d] using this
  · have := h 1 ⟨by decide, by decide⟩
    simpa [vecAt, d] using this

/-- C96: the factors of README.md:319 in exact arithmetic, `exp(-2 pi i (j k / n))`, are the powers `w^(j*k)` of a
primitive `n`-th root of unity, so that the other theorems apply to them. -/
theorem C96_dft_factors (n : Nat) (hn : n ≠ 0) :
    ∃ w : ℂ, IsPrimitiveRoot w n ∧ ∀ j k : Int,
      Complex.exp (-2 * Real.pi * Complex.I * ((j * k : Int) / n)) = w ^ (j * k) := by
  refine ⟨(Complex.exp (2 * Real.pi * Complex.I / n))⁻¹, (Complex.isPrimitiveRoot_exp n hn).inv, fun j k => ?_⟩
  rw [← Complex.exp_neg, ← Complex.exp_int_mul]
  congr 1
  ring

end Nda
