import Verif.Lemmas.Reinterpret
import Verif.Props.Array
import Verif.Props.Static
/-
C48: `move_reinterpret_shape` and `array::set_shape`.
-/
namespace Nda
open Spec
variable {V : Type}

/-- An array of a reachable state with elements owns a block, and all of its elements are inside. -/
theorem reachable_owns {ty : Types V} (hdef : TypesOk ty) {w : World V}
    (hw : Reachable ty w) {x : Nat} {a : Arr} (ha : w.vars x = some a) (hn : NotHollow a)
    (hp : Pos a.shape) :
    ∃ b p blk, a.base = some (b, p) ∧ w.heap b = some blk ∧ b ≠ w.nextBlock ∧ x ≠ w.nextVar ∧
      p + a.shape.flatMin = 0 ∧ p + a.shape.flatMax < blk.size ∧
      ∀ i, InBox a.shape i → 0 < blk.live (p + offsetOf a.shape i) := by
  have hI := hw.inv hdef
  rcases (hI.good x a ha).own with ⟨ho, _⟩ | ⟨b, blk, hh, hl⟩
  · exact absurd hp (hn ho.base)
  · have h1 : b ≠ w.nextBlock := by
      rintro rfl
      have := hI.fresh w.nextBlock (le_refl _)
      rw [hh.heap] at this; simp at this
    have h2 : x ≠ w.nextVar := by
      rintro rfl
      have := hI.freshVar w.nextVar (le_refl _)
      rw [ha] at this; simp at this
    refine ⟨b, _, blk, hh.base, hh.heap, h1, h2, by omega, ?_, ?_⟩
    · rw [hh.size]
      have := flatExtent_pos hp
      rw [flatExtent_eq] at this ⊢
      omega
    · intro i hi
      rw [hl, cnt_pos_iff]
      exact ⟨i, hi, rfl⟩

/-- C48: whenever the new shape, moved by `offset`, lies within the flat extent of the old one, the
elements of the result are elements of the allocation that `from` had. -/
theorem C48_within (ty : Types V) (hdef : TypesOk ty) (w w' : World V)
    (hw : Reachable ty w) (frm : Nat) (a : Arr) (ha : w.vars frm = some a) (hn : NotHollow a)
    (hp : Pos a.shape) (defaultNew newShape : Shape) (offset : Int)
    (hsub : newShape.isSubsetOf a.shape (-offset) = true)
    (h : moveReinterpretShape ty defaultNew frm newShape offset w = .ok w') :
    ∃ r b p blk, w'.vars w.nextVar = some r ∧ r.shape = newShape ∧ r.base = some (b, p) ∧
      a.buffer = r.buffer ∧ w'.heap b = some blk ∧ w.heap b = some blk ∧
      ∀ i, InBox newShape i → 0 ≤ p + offsetOf newShape i ∧ p + offsetOf newShape i < blk.size := by
  obtain ⟨b, p, blk, hb, hblk, hne, hx, h0, h1, -⟩ := reachable_owns hdef hw ha hn hp
  obtain ⟨-, hh, -, ⟨r, hr, hs, hbuf, -, hbase⟩, -⟩ := moveReinterpretShape_ok h ha hx
  rw [hb] at hbase
  refine ⟨r, b, p + offset, blk, hr, hs, hbase, hbuf.symm, by rw [hh b hne, hblk], hblk, fun i hi => ?_⟩
  unfold Shape.isSubsetOf at hsub
  simp only [Bool.and_eq_true, decide_eq_true_eq] at hsub
  have := offsetOf_bounds hi
  change Shape.flatMin newShape ≤ _ ∧ _ ≤ Shape.flatMax newShape at this
  omega

/-- C48 for `offset = 0`: an assertion-passing call stays within the allocation. -/
theorem C48_offset_zero (ty : Types V) (hdef : TypesOk ty) (hd : ty.debug = true)
    (w w' : World V) (hw : Reachable ty w) (frm : Nat) (a : Arr) (ha : w.vars frm = some a)
    (hn : NotHollow a) (hp : Pos a.shape) (defaultNew newShape : Shape)
    (h : moveReinterpretShape ty defaultNew frm newShape 0 w = .ok w') :
    ∃ r b p blk, w'.vars w.nextVar = some r ∧ r.shape = newShape ∧ r.base = some (b, p) ∧
      a.buffer = r.buffer ∧ w'.heap b = some blk ∧ w.heap b = some blk ∧
      ∀ i, InBox newShape i → 0 ≤ p + offsetOf newShape i ∧ p + offsetOf newShape i < blk.size := by
  obtain ⟨b, p, blk, hb, hblk, hne, hx, h0, h1, -⟩ := reachable_owns hdef hw ha hn hp
  obtain ⟨hsub, -⟩ := moveReinterpretShape_ok h ha hx
  exact C48_within ty hdef w w' hw frm a ha hn hp defaultNew newShape 0 (by simpa using hsub hd) h

/-- C48: an index of the result that addresses the same element as an index of `from` did finds the
value that was there, and other arrays are not affected. -/
theorem C48_values (ty : Types V) (hdef : TypesOk ty) (w w' : World V)
    (hw : Reachable ty w) (frm : Nat) (a : Arr) (ha : w.vars frm = some a) (hn : NotHollow a)
    (hp : Pos a.shape) (defaultNew newShape : Shape) (offset : Int)
    (h : moveReinterpretShape ty defaultNew frm newShape offset w = .ok w') :
    (∀ i j, InBox a.shape j → offset + offsetOf newShape i = offsetOf a.shape j →
      elem w' w.nextVar i = elem w frm j) ∧
    ∀ x, x ≠ frm → x ≠ w.nextVar → w'.vars x = w.vars x := by
  obtain ⟨b, p, blk, hb, hblk, hne, hx, h0, h1, -⟩ := reachable_owns hdef hw ha hn hp
  obtain ⟨-, hh, hv, ⟨r, hr, hs, hbuf, -, hbase⟩, -⟩ := moveReinterpretShape_ok h ha hx
  refine ⟨fun i j hj e => ?_, hv⟩
  unfold elem World.get
  rw [hr, ha]
  simp only [bind, Except.bind]
  rw [hbase, hb, hs]
  simp only [Option.map_some, flatOffset_eq]
  unfold readAt World.block
  rw [hh b hne, show p + offset + offsetOf newShape i = p + offsetOf a.shape j from by omega]

/-- Types with one-dimensional shapes for the examples. -/
def exampleTypes1 : Types Int := { exampleTypes with defaultShape := [⟨0, 0, unresolved⟩] }

/-- The result of a call after a program, read at an index. -/
def reinterpreted (ty : Types Int) (p : List (Cmd Int)) (defaultNew newShape : Shape) (offset : Int)
    (frm : Nat) (x : Nat) (i : Index) : Except Fault Int := do
  let w ← execAll ty p World.start
  let w ← moveReinterpretShape ty defaultNew frm newShape offset w
  elem w x i

/-- Six elements 0..5. -/
def exampleSix : List (Cmd Int) :=
  [.newShape [⟨0, 6, unresolved⟩], .write 0 [1] 1, .write 0 [2] 2, .write 0 [3] 3, .write 0 [4] 4,
   .write 0 [5] 5]

/-- C48 is false for `offset ≠ 0`: an assertion-passing call gives an array whose in-range elements lie
outside of the allocation (the assertion tests the offset with the wrong sign) ... -/
theorem C48_offset_counterexample : ∃ (ty : Types Int) (p : List (Cmd Int)) (newShape : Shape) (offset : Int)
    (i : Index), ty.debug = true ∧ AllowedRun ty p World.start ∧ InBox newShape i ∧
    reinterpreted ty p ty.defaultShape newShape offset 0 1 i = .error .outOfBounds :=
  ⟨exampleTypes1, exampleSix, [⟨0, 2, 1⟩], -4, [0], rfl, by decide +kernel, by decide, by decide +kernel⟩

/-- ... and calls that would be fine are rejected. -/
theorem C48_rejected_counterexample : ∃ (ty : Types Int) (p : List (Cmd Int)) (newShape : Shape)
    (offset : Int) (i : Index), AllowedRun ty p World.start ∧ InBox newShape i ∧
    newShape.isSubsetOf [⟨0, 6, 1⟩] (-offset) = true ∧
    reinterpreted ty p ty.defaultShape newShape offset 0 1 i = .error .assertion ∧
    reinterpreted { ty with debug := false } p ty.defaultShape newShape offset 0 1 i = .ok 4 :=
  ⟨exampleTypes1, exampleSix, [⟨0, 2, 1⟩], 4, [0], by decide +kernel, by decide, by decide, by decide +kernel,
    by decide +kernel⟩

/-- Between two static shapes, the moved-from array keeps its shape but gets the smaller buffer of the
default constructed result: its in-range elements are out of bounds. -/
theorem C48_moved_from_counterexample : ∃ (ty : Types Int) (p : List (Cmd Int)) (newShape : Shape)
    (i : Index), ty.debug = true ∧ AllowedRun ty p World.start ∧ InBox ty.defaultShape i ∧
    reinterpreted ty p newShape newShape 0 0 0 i = .error .outOfBounds :=
  ⟨{ exampleTypes with defaultShape := [⟨0, 6, 1⟩] }, [.new], [⟨0, 2, 1⟩], [5], rfl, by decide +kernel,
    by decide, by decide +kernel⟩

/-- Six elements as a 2×3 matrix. -/
example : reinterpreted exampleTypes1 exampleSix [⟨0, 0, unresolved⟩, ⟨0, 0, unresolved⟩]
    [⟨0, 2, 3⟩, ⟨0, 3, 1⟩] 0 0 1 [1, 2] = .ok 5 := by decide +kernel

/-- C48 for `array::set_shape`, which tests the right sign: an assertion-passing call stays within the
allocation. -/
theorem C48_set_shape (ty : Types V) (hdef : TypesOk ty) (hd : ty.debug = true)
    (w w' : World V) (hw : Reachable ty w) (x : Nat) (a : Arr) (ha : w.vars x = some a)
    (hn : NotHollow a) (hp : Pos a.shape) (newShape : Shape) (offset : Int)
    (h : arraySetShape ty x newShape offset w = .ok w') :
    ∃ r b p blk, w'.vars x = some r ∧ r.shape = newShape ∧ r.base = some (b, p) ∧
      r.buffer = a.buffer ∧ w'.heap = w.heap ∧ w.heap b = some blk ∧
      (∀ d ∈ newShape, Known d) ∧
      (∀ i, InBox newShape i → 0 ≤ p + offsetOf newShape i ∧ p + offsetOf newShape i < blk.size) ∧
      ∀ i j, InBox a.shape j → offset + offsetOf newShape i = offsetOf a.shape j →
        elem w' x i = elem w x j := by
  obtain ⟨b, p, blk, hb, hblk, hne, hx, h0, h1, -⟩ := reachable_owns hdef hw ha hn hp
  unfold arraySetShape at h
  obtain ⟨f, hget, h2⟩ := ok_of_bind h
  unfold World.get at hget
  rw [ha] at hget
  simp only [Except.ok.injEq] at hget
  subst hget
  obtain ⟨w1, hw1, h3⟩ := ok_of_bind h2
  obtain ⟨hres, rfl⟩ := ok_of_assert hw1
  obtain ⟨w2, hw2, h4⟩ := ok_of_bind h3
  obtain ⟨hsub, rfl⟩ := ok_of_assert hw2
  simp only [Except.ok.injEq] at h4
  have hvar : w'.vars x = some { a with
      shape := newShape, base := a.base.map fun p => (p.1, p.2 + offset) } := by
    rw [← h4]; simp [World.setVar]
  have hheap : w'.heap = w2.heap := by rw [← h4]; rfl
  refine ⟨_, b, p + offset, blk, hvar, rfl, by simp [hb], rfl, hheap, hblk, ?_, fun i hi => ?_,
    fun i j hj e => ?_⟩
  · exact isResolved_iff.1 (hres hd)
  · have hs := hsub hd
    unfold Shape.isSubsetOf at hs
    simp only [Bool.and_eq_true, decide_eq_true_eq] at hs
    have := offsetOf_bounds hi
    change Shape.flatMin newShape ≤ _ ∧ _ ≤ Shape.flatMax newShape at this
    omega
  · unfold elem World.get
    rw [hvar, ha]
    simp only [bind, Except.bind, hb, Option.map_some, flatOffset_eq]
    unfold readAt World.block
    rw [hheap, show p + offset + offsetOf newShape i = p + offsetOf a.shape j from by omega]

/-- Take the second row of a 2×3 matrix, and read an element of it. -/
example : (do
    let w ← execAll exampleTypes [.newShape [⟨0, 3, 1⟩, ⟨0, 2, 3⟩], .write 0 [2, 1] 9] World.start
    let w ← arraySetShape exampleTypes 0 [⟨0, 3, 1⟩, ⟨0, 1, 3⟩] 3 w
    elem w 0 [2, 0]) = .ok 9 := by decide +kernel

/-- C48: moving an array to a type of higher rank, and to one of lower rank if the dims that are dropped have one
index, without an offset: every element is found at the index with coordinates appended or dropped, with the value
it had, and there are no other elements. -/
theorem C48_convert (ty : Types V) (hdef : TypesOk ty) (w w' : World V) (hw : Reachable ty w) (frm : Nat) (a : Arr)
    (ha : w.vars frm = some a) (hn : NotHollow a) (hp : Pos a.shape) (hk : ∀ d ∈ a.shape, Known d)
    (defaultNew : Shape) (ts : List DimT) (hc : convertShapeAssert ts a.shape = true)
    (h : moveReinterpretConvert ty defaultNew ts frm 0 w = .ok w') :
    ∃ r, w'.vars w.nextVar = some r ∧ List.length r.shape = ts.length ∧
      (List.length a.shape ≤ ts.length → ∃ tail : Index,
        (∀ i, InBox a.shape i → InBox r.shape (i ++ tail) ∧ elem w' w.nextVar (i ++ tail) = elem w frm i) ∧
        ∀ j, InBox r.shape j → ∃ i, InBox a.shape i ∧ j = i ++ tail) ∧
      (ts.length ≤ List.length a.shape → ∃ tail : Index,
        (∀ j, InBox r.shape j → InBox a.shape (j ++ tail) ∧ elem w' w.nextVar j = elem w frm (j ++ tail)) ∧
        ∀ i, InBox a.shape i → ∃ j, InBox r.shape j ∧ i = j ++ tail) := by
  unfold moveReinterpretConvert at h
  obtain ⟨f, hget, h1⟩ := ok_of_bind h
  unfold World.get at hget
  rw [ha] at hget
  simp only [Except.ok.injEq] at hget
  subst hget
  obtain ⟨w1, hw1, h2⟩ := ok_of_bind h1
  obtain ⟨-, rfl⟩ := ok_of_assert hw1
  have hval := (C48_values ty hdef _ w' hw frm _ ha hn hp defaultNew _ 0 h2).1
  obtain ⟨b, p, blk, hb, hblk, hne, hx, -⟩ := reachable_owns hdef hw ha hn hp
  obtain ⟨-, -, -, ⟨r, hr, hs, -⟩, -⟩ := moveReinterpretShape_ok h2 ha hx
  have hlen : List.length (convertShape ts a.shape) = ts.length := by simp [convertShape, convertDims]
  refine ⟨r, hr, by rw [hs, hlen], fun hle => ?_, fun hle => ?_⟩
  · obtain ⟨extra, -, -, h3, h4⟩ := C30_raise ts ⟨some 0, a.shape⟩ hle hk hc
    rw [hs]
    refine ⟨extra.map Dim.min, fun i hi => ⟨(h3 i hi).1, ?_⟩, h4⟩
    have e := (h3 i hi).2
    simp only [ArrayRef.at_, ArrayRef.convertShape, Option.map_some, Option.some.injEq, flatOffset_eq] at e
    exact hval _ _ hi (by omega)
  · obtain ⟨-, tail, h3, h4⟩ := C30_lower ts ⟨some 0, a.shape⟩ hle hk hc
    rw [hs]
    refine ⟨tail, fun j hj => ⟨(h3 j hj).1, ?_⟩, h4⟩
    have e := (h3 j hj).2
    simp only [ArrayRef.at_, ArrayRef.convertShape, Option.map_some, Option.some.injEq, flatOffset_eq] at e
    exact hval _ _ (h3 j hj).1 (by omega)

/-- test/array.cpp:475-484: from rank 3 to rank 2. -/
example : (do
    let ty := { exampleTypes with defaultShape := [⟨0, 0, unresolved⟩, ⟨0, 0, unresolved⟩, ⟨0, 0, unresolved⟩] }
    let w ← execAll ty [.newShape [⟨0, 9, unresolved⟩, ⟨0, 5, 10⟩, ⟨0, 1, unresolved⟩], .write 0 [2, 1, 0] 9] World.start
    let w ← moveReinterpretConvert ty [⟨0, 0, unresolved⟩, ⟨0, 0, unresolved⟩]
      [⟨dynamic, dynamic, dynamic⟩, ⟨dynamic, dynamic, dynamic⟩] 0 0 w
    elem w 1 [2, 1]) = .ok 9 := by decide +kernel

end Nda
