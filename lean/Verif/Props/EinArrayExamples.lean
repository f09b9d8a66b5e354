import Verif.Props.EinArrayMatrix
import Verif.Props.EinTiles
import Verif.Props.Array
/-
Concrete cases beside the theorems of C72.
-/
namespace Nda
open Spec

variable {V : Type}

/-- `einReduceArray`, with the list of loop indices instead of the loop. -/
def einRun (ty : Types V) (f : V → V → V) (lhs : EinRef) (rhs : EinTerm V) (w : World V) : Except Fault (World V) := do
  let w ← assert ty (einAssert lhs.op rhs.expr) w
  (boxList (einLoopShape lhs.op rhs.expr)).foldlM (fun w i => einStepArray f lhs rhs i w) w

theorem einRun_eq (ty : Types V) (f : V → V → V) (lhs : EinRef) (rhs : EinTerm V) (w : World V)
    (h : (einLoopShape lhs.op rhs.expr).all (fun d => decide (0 ≤ d.extent)) = true) :
    einReduceArray ty f lhs rhs w = einRun ty f lhs rhs w := by
  unfold einReduceArray einRun
  rw [forEachIndex_eq (nonNeg_of_all h)]

/-- A program, then a reduction; the elements of array `x` at the indices `l`. -/
def einRead (ty : Types Int) (p : List (Cmd Int)) (lhs : EinRef) (rhs : EinTerm Int) (f : Int → Int → Int) (l : List (Nat × Index)) :
    Except Fault (List Int) := do
  let w ← execAll ty p World.start
  let w ← einReduceArray ty f lhs rhs w
  l.mapM fun q => elem w q.1 q.2

theorem einRead_eq (ty : Types Int) (p : List (Cmd Int)) (lhs : EinRef) (rhs : EinTerm Int) (f : Int → Int → Int)
    (l : List (Nat × Index)) (h : (einLoopShape lhs.op rhs.expr).all (fun d => decide (0 ≤ d.extent)) = true) :
    einRead ty p lhs rhs f l = (do
      let w ← execAll ty p World.start
      let w ← einRun ty f lhs rhs w
      l.mapM fun q => elem w q.1 q.2) := by
  unfold einRead
  simp only [einRun_eq ty f lhs rhs _ h]

/-- Array 0 is the 2×3 matrix (1 2 3; 4 5 6), array 1 the 3×2 matrix (1 0; 0 1; 2 2). -/
def exampleMatrices : List (Cmd Int) :=
  [.newFill [⟨0, 2, unresolved⟩, ⟨0, 3, unresolved⟩] 1, .write 0 [0, 1] 2, .write 0 [0, 2] 3, .write 0 [1, 0] 4, .write 0 [1, 1] 5,
    .write 0 [1, 2] 6, .newFill [⟨0, 3, unresolved⟩, ⟨0, 2, unresolved⟩] 0, .write 1 [0, 0] 1, .write 1 [1, 1] 1, .write 1 [2, 0] 2,
    .write 1 [2, 1] 2]

def dynDim (min extent stride : Int) : SDim := ⟨anyDim, ⟨min, extent, stride⟩⟩

/-- `ein_reduce(ein<0, 1>(C) += ein<0, 2>(A) * ein<2, 1>(B))` with `C` (array 2) full of 100. -/
example : einRead exampleTypes (exampleMatrices ++ [.newFill [⟨0, 2, unresolved⟩, ⟨0, 2, unresolved⟩] 100])
    ⟨2, [dynDim 0 2 1, dynDim 0 2 2], 0, [0, 1]⟩
    (matTerm 0 [dynDim 0 2 1, dynDim 0 3 2] 1 [dynDim 0 3 1, dynDim 0 2 3] 0 1 2) (· + ·)
    [(2, [0, 0]), (2, [0, 1]), (2, [1, 0]), (2, [1, 1]), (0, [1, 2])] = .ok [107, 108, 116, 117, 6] := by
  rw [einRead_eq _ _ _ _ _ _ (by decide +kernel)]
  decide +kernel

/-- The same into rows 1 and 2 of a 4×2 array: the other rows stay. -/
example : einRead exampleTypes (exampleMatrices ++ [.newFill [⟨0, 4, unresolved⟩, ⟨0, 2, unresolved⟩] 100])
    ⟨2, [dynDim 0 2 1, dynDim 0 2 4], 1, [0, 1]⟩
    (matTerm 0 [dynDim 0 2 1, dynDim 0 3 2] 1 [dynDim 0 3 1, dynDim 0 2 3] 0 1 2) (· + ·)
    [(2, [0, 0]), (2, [1, 0]), (2, [2, 0]), (2, [3, 0]), (2, [1, 1])] = .ok [100, 107, 116, 100, 108] := by
  rw [einRead_eq _ _ _ _ _ _ (by decide +kernel)]
  decide +kernel

/-- Views of other ranks, and of one array: row 1 of array 0 becomes row 0 of array 0, `ein_reduce(ein<3>(A(1, _)) = ein<3>(A(0, _)))`. -/
example : einRead exampleTypes exampleMatrices ⟨0, [dynDim 0 3 2], 1, [3]⟩ (.ref ⟨0, [dynDim 0 3 2], 0, [3]⟩) (fun _ y => y)
    [(0, [0, 0]), (0, [1, 0]), (0, [1, 1]), (0, [1, 2])] = .ok [1, 1, 2, 3] := by
  rw [einRead_eq _ _ _ _ _ _ (by decide +kernel)]
  decide +kernel

/-- `EinArrays.apart` is needed: `ein_reduce(ein<0, 1>(A) = ein<1, 0>(A))` does not transpose (the leading 2×2 part of array 0,
(1 2; 4 5), becomes (1 2; 2 5), because `A(1, 0) = A(0, 1)` comes before `A(0, 1) = A(1, 0)`). -/
theorem C72_alias_counterexample :
    einRead exampleTypes exampleMatrices ⟨0, [dynDim 0 2 1, dynDim 0 2 2], 0, [0, 1]⟩
      (.ref ⟨0, [dynDim 0 2 1, dynDim 0 2 2], 0, [1, 0]⟩) (fun _ y => y)
      [(0, [0, 0]), (0, [0, 1]), (0, [1, 0]), (0, [1, 1])] = .ok [1, 2, 2, 5] := by
  rw [einRead_eq _ _ _ _ _ _ (by decide +kernel)]
  decide +kernel

/-- An operand that is too small: an assertion fails; without assertions an element outside the array is read. -/
example : einRead exampleTypes exampleMatrices ⟨0, [dynDim 0 3 2], 1, [0]⟩ (.ref ⟨1, [dynDim 0 2 3], 2, [0]⟩) (· + ·)
      [(0, [0, 0])] = .error .assertion ∧
    einRead { exampleTypes with debug := false } exampleMatrices ⟨0, [dynDim 0 3 2], 1, [0]⟩ (.ref ⟨1, [dynDim 0 2 3], 2, [0]⟩)
      (· + ·) [(0, [0, 0])] = .error .outOfBounds := by
  rw [einRead_eq _ _ _ _ _ _ (by decide +kernel), einRead_eq _ _ _ _ _ _ (by decide +kernel)]
  decide +kernel

theorem contents_of {w : World Int} {x : Nat} {s : Shape} {f : Index → Int} (h : (w.vars x).map Arr.shape = some s)
    (h' : ∀ i ∈ boxList s, elem w x i = .ok (f i)) : Contents w x s f := by
  obtain ⟨a, ha, e⟩ := Option.map_eq_some_iff.1 h
  exact ⟨⟨a, ha, e⟩, fun i hi => h' i (mem_boxList.2 hi)⟩

/-- The state after `exampleMatrices`. -/
def exampleWorld : World Int :=
  match execAll exampleTypes exampleMatrices World.start with
  | .ok w => w
  | .error _ => World.start

theorem exampleWorld_reachable : Reachable exampleTypes exampleWorld := by
  refine ⟨exampleMatrices, by decide +kernel, ?_⟩
  unfold exampleWorld
  have : (match execAll exampleTypes exampleMatrices World.start with | .ok _ => true | .error _ => false) = true := by
    decide +kernel
  split at this
  · rename_i h; rw [h]
  · simp at this

/-- The hypotheses of `C72_product` hold for the matrices above. -/
example : ∃ w', makeEinSumArray exampleTypes (· + ·) [0, 1]
      (matTerm 0 [dynDim 0 2 1, dynDim 0 3 2] 1 [dynDim 0 3 1, dynDim 0 2 3] 0 1 2) 100 7 exampleWorld = .ok w' ∧
    elem w' 2 [0, 0] = .ok 107 ∧ elem w' 2 [1, 0] = .ok 116 ∧ elem w' 2 [1, 1] = .ok 117 ∧ elem w' 0 [1, 2] = .ok 6 := by
  let f : Index → Int := fun p => 3 * p.getD 0 0 + p.getD 1 0 + 1
  let g : Index → Int := fun p => if p.getD 0 0 = 2 then 2 else if p.getD 0 0 = p.getD 1 0 then 1 else 0
  have hn : exampleWorld.nextVar = 2 := by decide +kernel
  obtain ⟨w', d0, d1, e, -, -, -, -, -, h0, h1, ⟨-, hc⟩, hfr⟩ := C72_product exampleTypes (by decide) rfl exampleWorld
    exampleWorld_reachable 0 1 (dynDim 0 2 1) (dynDim 0 3 2) (dynDim 0 3 1) (dynDim 0 2 3)
    (by unfold Fits Describes; decide) f g (contents_of (by decide +kernel) (by decide +kernel)) (contents_of (by decide +kernel) (by decide +kernel))
    ⟨rfl, rfl⟩ (by decide) (by decide) (by decide) 0 1 2 (by decide) (by decide) (by decide) 100 7
  rw [hn] at hc
  have hb : ∀ p q : Int, 0 ≤ p → p < 2 → 0 ≤ q → q < 2 → InBox [d0.val, d1.val] [p, q] := by
    intro p q _ _ _ _
    rw [inBox2, h0, h1]
    simp only [dynDim]
    omega
  have hA := hfr 0 _ f (contents_of (s := [⟨0, 2, 1⟩, ⟨0, 3, 2⟩]) (by decide +kernel) (by decide +kernel))
  exact ⟨w', e, hc _ (hb 0 0 (by decide) (by decide) (by decide) (by decide)), hc _ (hb 1 0 (by decide) (by decide) (by decide) (by decide)),
    hc _ (hb 1 1 (by decide) (by decide) (by decide) (by decide)), hA.2 [1, 2] (by decide)⟩

/-- `C72_assoc`: `(AB)A == A(BA)` for the same matrices. -/
example : ∃ w1 w2 w3 w4 dab dba, 
      makeEinSumArray exampleTypes (· + ·) [0, 1]
        (matTerm 0 [dynDim 0 2 1, dynDim 0 3 2] 1 [dynDim 0 3 1, dynDim 0 2 3] 0 1 2) 0 7 exampleWorld = .ok w1 ∧
      makeEinSumArray exampleTypes (· + ·) [0, 1] (matTerm 2 dab 0 [dynDim 0 2 1, dynDim 0 3 2] 0 1 2) 0 7 w1 = .ok w2 ∧
      makeEinSumArray exampleTypes (· + ·) [0, 1]
        (matTerm 1 [dynDim 0 3 1, dynDim 0 2 3] 0 [dynDim 0 2 1, dynDim 0 3 2] 0 1 2) 0 7 w2 = .ok w3 ∧
      makeEinSumArray exampleTypes (· + ·) [0, 1] (matTerm 0 [dynDim 0 2 1, dynDim 0 3 2] w2.nextVar dba 0 1 2) 0 7 w3 = .ok w4 ∧
      arraysEq exampleTypes (fun u v => u != v) w1.nextVar w3.nextVar w4 = .ok true := by
  let f : Index → Int := fun p => 3 * p.getD 0 0 + p.getD 1 0 + 1
  let g : Index → Int := fun p => if p.getD 0 0 = 2 then 2 else if p.getD 0 0 = p.getD 1 0 then 1 else 0
  have hn : exampleWorld.nextVar = 2 := by decide +kernel
  have hA : Contents exampleWorld 0 [⟨0, 2, 1⟩, ⟨0, 3, 2⟩] f := contents_of (by decide +kernel) (by decide +kernel)
  obtain ⟨w1, w2, w3, w4, dab, dbc, -, -, e1, e2, e3, e4, -, he, -⟩ := C72_assoc exampleTypes (by decide) rfl exampleWorld
    exampleWorld_reachable 0 1 0 (dynDim 0 2 1) (dynDim 0 3 2) (dynDim 0 3 1) (dynDim 0 2 3) (dynDim 0 2 1) (dynDim 0 3 2)
    (by unfold Fits Describes; decide) f g f hA (contents_of (by decide +kernel) (by decide +kernel)) hA
    ⟨rfl, rfl⟩ ⟨rfl, rfl⟩ (by decide) (by decide) (by decide) (by decide) (by decide) (by decide) (by decide)
    0 1 2 (by decide) (by decide) (by decide) 7 (fun u v => u != v) (by simp)
  rw [hn] at e2
  exact ⟨w1, w2, w3, w4, dab, dbc, e1, e2, e3, e4, he⟩

end Nda
