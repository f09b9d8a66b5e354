import Verif.Lemmas.EinAsserts
/-
C92: when the bounds checks of Einstein reductions pass.
-/
namespace Nda
open Spec
variable {α : Type}

/-- The values of the dims found in the operands of an expression. -/
theorem gather_operands {e : EinExpr α} (ht : ∀ o ∈ leaves e, OpTyped o) (k : Nat) :
    (e.gatherDims k .operand).map SDim.val =
      (leaves e).flatMap fun o => (dimFor k o).toList.map fun d => ⟨d.min, d.extent, 0⟩ := by
  rw [gatherDims_eq, List.map_flatMap]
  refine List.flatMap_congr fun o ho => (gather_values (ht o ho) k).2.1

/-- C92: the assertions of `ein_reduce(lhs op= rhs)` pass exactly if the bounds of the operands are as they must be. -/
theorem C92_reduce (lhs : EinOp α) (rhs : EinExpr α) (ht : ∀ o ∈ lhs :: leaves rhs, OpTyped o) :
    einAssert lhs rhs = true ↔ ReduceBounds lhs rhs := by
  have hv : ∀ k, (einLoopDims lhs rhs k).map SDim.val = (dimFor k lhs).toList ++
      (leaves rhs).flatMap fun o => (dimFor k o).toList.map fun d => ⟨d.min, d.extent, 0⟩ := by
    intro k
    unfold einLoopDims
    rw [List.map_append, (gather_values (ht lhs (by simp)) k).1, gather_operands (fun o ho => ht o (by simp [ho]))]
  have hm : ∀ k x, x ∈ ((leaves rhs).flatMap fun o => (dimFor k o).toList.map fun d => (⟨d.min, d.extent, 0⟩ : Dim)) ↔
      ∃ o ∈ leaves rhs, ∃ d, dimFor k o = some d ∧ (⟨d.min, d.extent, 0⟩ : Dim) = x := by
    intro k x
    simp only [List.mem_flatMap, List.mem_map, Option.mem_toList, Option.mem_def]
  rw [einAssert_iff]
  constructor
  · intro h k o ho d hd
    have hk : k < loopRank (lhs :: leaves rhs) := lt_loopRank (by simp [ho]) (dimFor_uses hd)
    have h := (reconcileAssert_iff _).1 (h k hk)
    rw [hv] at h
    constructor
    · intro d0 h0
      rw [h0] at h
      exact h d0 rfl ⟨d.min, d.extent, 0⟩ (List.mem_append.2 (Or.inr ((hm k _).2 ⟨o, ho, d, hd, rfl⟩)))
    · intro h0 o' ho' d' hd'
      rw [h0, Option.toList_none, List.nil_append] at h
      have m1 := (hm k _).2 ⟨o, ho, d, hd, rfl⟩
      have m2 := (hm k _).2 ⟨o', ho', d', hd', rfl⟩
      have m0 := fun x => (hm k x).1
      generalize (leaves rhs).flatMap (fun o => (dimFor k o).toList.map fun d => (⟨d.min, d.extent, 0⟩ : Dim)) = l
        at h m1 m2 m0
      cases l with
      | nil => simp at m1
      | cons x l =>
        have hx : x.stride = 0 := by
          obtain ⟨_, _, _, _, rfl⟩ := m0 x (by simp)
          rfl
        have e1 := (h x rfl _ m1).1 hx
        have e2 := (h x rfl _ m2).1 hx
        exact ⟨e1.1.trans e2.1.symm, e1.2.trans e2.2.symm⟩
  · intro h k _
    rw [reconcileAssert_iff, hv]
    intro d0 h0 x hx
    cases hl : dimFor k lhs with
    | some l =>
      rw [hl] at h0 hx
      obtain rfl : l = d0 := by simpa using h0
      rcases List.mem_append.1 hx with hx | hx
      · obtain rfl : x = l := by simpa using hx
        exact ⟨fun _ => ⟨rfl, rfl⟩, fun _ => ⟨le_refl _, le_refl _⟩⟩
      · obtain ⟨o, ho, d, hd, rfl⟩ := (hm k x).1 hx
        exact (h k o ho d hd).1 l hl
    | none =>
      rw [hl, Option.toList_none, List.nil_append] at h0 hx
      obtain ⟨o, ho, d, hd, rfl⟩ := (hm k x).1 hx
      obtain ⟨o', ho', d', hd', rfl⟩ := (hm k d0).1 (List.mem_of_head? h0)
      exact ⟨fun _ => (h k o ho d hd).2 hl o' ho' d' hd', fun hn => absurd rfl hn⟩

/-- C92: the assertions of `make_ein_reduce_shape`, with which `make_ein_sum` infers the shape of its result, pass exactly if the
bounds of the operands are as they must be. -/
theorem C92_make_sum (ris : List Nat) (e : EinExpr α) (ht : ∀ o ∈ leaves e, OpTyped o) :
    makeEinReduceShapeAssert ris e = true ↔ InferBounds ris e := by
  unfold makeEinReduceShapeAssert InferBounds
  rw [List.all_eq_true]
  refine forall₂_congr fun k _ => ?_
  rw [reconcileAssert_iff, gatherDims_eq, List.map_flatMap]
  have hm : ∀ x, x ∈ ((leaves e).flatMap fun o => (o.gatherDims k .inferred).map SDim.val) ↔
      ∃ o ∈ leaves e, x ∈ (o.gatherDims k .inferred).map SDim.val := fun x => List.mem_flatMap
  have hh := gather_inferred_all ht k
  have hs : ∀ x ∈ (leaves e).flatMap (fun o => (o.gatherDims k .inferred).map SDim.val), x.stride ≠ 0 := by
    intro x hx
    obtain ⟨o, ho, hx⟩ := (hm x).1 hx
    obtain ⟨c, hc, he⟩ := (gather_values (ht o ho) k).2.2
    rw [he] at hx
    obtain ⟨d, _, rfl⟩ := List.mem_map.1 hx
    exact hc
  have hhead : ((leaves e).flatMap fun o => (o.gatherDims k .inferred).map SDim.val).head?.map
      (fun x => (x.min, x.extent)) = (firstUse k (leaves e)).map fun d => (d.min, d.extent) := by
    rw [← hh, ← List.map_flatMap, List.head?_map, Option.map_map]
    rfl
  constructor
  · intro h d0 h0 o ho d hd
    rw [h0, Option.map_some, Option.map_eq_some_iff] at hhead
    obtain ⟨x0, hx0, e0⟩ := hhead
    obtain ⟨c, hc, he⟩ := (gather_values (ht o ho) k).2.2
    have := (h x0 hx0 ⟨d.min, d.extent, c⟩ ((hm _).2 ⟨o, ho, by rw [he, hd]; simp⟩)).2 (hs x0 (List.mem_of_head? hx0))
    simp only [Prod.mk.injEq] at e0
    simpa only [Covers, e0.1, e0.2] using this
  · intro h x0 hx0 x hx
    refine ⟨fun h0 => absurd h0 (hs x0 (List.mem_of_head? hx0)), fun _ => ?_⟩
    rw [hx0, Option.map_some] at hhead
    obtain ⟨d0, h0, e0⟩ := Option.map_eq_some_iff.1 hhead.symm
    obtain ⟨o, ho, hx⟩ := (hm x).1 hx
    obtain ⟨c, hc, he⟩ := (gather_values (ht o ho) k).2.2
    rw [he] at hx
    obtain ⟨d, hd, rfl⟩ := List.mem_map.1 hx
    have := h d0 h0 o ho d (by simpa using hd)
    simp only [Prod.mk.injEq] at e0
    simpa only [Covers, e0.1, e0.2] using this

/-- The loop along an index of the result is that of the result. -/
theorem einLoopShape_of_result {lhs : EinOp α} {rhs : EinExpr α} (ht : ∀ o ∈ lhs :: leaves rhs, OpTyped o) {k : Nat} {d : Dim}
    (h : dimFor k lhs = some d) : (einLoopShape lhs rhs)[k]? = some d := by
  rw [einLoopShape_get]
  refine ⟨lt_loopRank (o := lhs) (by simp) (dimFor_uses h), ?_⟩
  have hg := (gather_values (ht lhs (by simp)) k).1
  rw [h] at hg
  unfold einLoopDims
  cases hl : lhs.gatherDims k .result with
  | nil => rw [hl] at hg; simp at hg
  | cons x xs =>
    rw [hl] at hg
    simp only [List.map_cons, Option.toList_some, List.cons.injEq] at hg
    exact hg.1

/-- C92: if every index of the right-hand side is an index of the result (nothing is summed), the result has no stride 0 and the
loops are not empty, the assertions pass exactly if no operand is accessed out of range.  Sums are checked more strictly: the
bounds must be equal, even if the loop is over the smaller ones. -/
theorem C92_exact (lhs : EinOp α) (rhs : EinExpr α) (ht : ∀ o ∈ lhs :: leaves rhs, OpTyped o)
    (hc : ∀ o ∈ lhs :: leaves rhs, OpConsistent o)
    (hres : ∀ k, ∀ o ∈ leaves rhs, OpUses o k → ∃ d, dimFor k lhs = some d ∧ d.stride ≠ 0)
    (hpos : ∀ d ∈ einLoopShape lhs rhs, 0 < d.extent) :
    einAssert lhs rhs = true ↔
      ∀ i, InBox (einLoopShape lhs rhs) i → ∀ o ∈ leaves rhs, OpInRange o i := by
  constructor
  · intro ha i hi o ho
    exact opInRange_of_loop ht hc ha hi (by simp [ho])
  · intro h
    rw [C92_reduce lhs rhs ht]
    intro k o ho d hd
    have hu : OpUses o k := by
      have := dimFor_uses hd
      obtain ⟨op, is⟩ := o
      cases op with
      | fn f => simp [dimFor, einDims] at hd
      | arr base dims => exact this
    obtain ⟨d1, h1, hs1⟩ := hres k o ho hu
    refine ⟨fun d0 h0 => ?_, fun hn => by rw [h1] at hn; cases hn⟩
    rw [h1, Option.some.injEq] at h0
    subst h0
    refine ⟨fun hz => absurd hz hs1, fun _ => ?_⟩
    -- the first and the last index of the loops
    have hshape := einLoopShape_of_result (rhs := rhs) ht h1
    set s := einLoopShape lhs rhs with hsdef
    have hb : ∀ (f : Dim → Int), (∀ d ∈ s, d.min ≤ f d ∧ f d < d.min + d.extent) → InBox s (s.map f) := by
      intro f hf
      rw [inBox_iff_get]
      refine ⟨by simp, fun k d x hd hx => ?_⟩
      rw [List.getElem?_map, hd] at hx
      obtain rfl : f d = x := by simpa using hx
      exact hf d (List.mem_of_getElem? hd)
    have hp1 : 0 < d1.extent := hpos d1 (List.mem_of_getElem? hshape)
    have hlo := h _ (hb Dim.min fun d hd => ⟨le_refl _, by have := hpos d hd; omega⟩) o ho
    have hhi := h _ (hb (fun d => d.min + d.extent - 1) fun d hd => by have := hpos d hd; omega) o ho
    -- the dim of the operand is at some position
    obtain ⟨op, is⟩ := o
    cases op with
    | fn f => simp [dimFor, einDims] at hd
    | arr base dims =>
      have hto := ht _ (List.mem_cons_of_mem _ ho)
      simp only [OpTyped] at hto
      have hz := find_zip_indexOf k is (dims.map SDim.val) (by simpa using hto.1)
      have hq : (dims.map SDim.val)[indexOf k is]? = some d := by rw [← hz]; exact hd
      have hk := (indexOf_mem (dimFor_uses hd)).2
      simp only [OpInRange] at hlo hhi
      rw [inBox_iff_get] at hlo hhi
      have g : ∀ f : Dim → Int, (pick is (s.map f))[indexOf k is]? = some (f d1) := by
        intro f
        rw [pick_get hk]
        have hh : (s.map f)[k]? = some (f d1) := by rw [List.getElem?_map, hshape]; rfl
        rw [List.getD_eq_getElem?_getD, hh]; rfl
      have a1 := hlo.2 _ _ _ hq (g Dim.min)
      have a2 := hhi.2 _ _ _ hq (g fun d => d.min + d.extent - 1)
      refine ⟨a1.1, ?_⟩
      omega

/-- C92: operands that are not arrays.  `ein<k>(x, N)` and `ein<k>(x)` for a C array `T x[N]` are in range for the indices
`0 ≤ i < N` and refer to `x[i]`; `ein(s)` refers to the scalar for every index. -/
theorem C92_operands (k : Nat) (x : Int) (n : Nat) (i : Index) (m : Mem α) :
    (∀ o ∈ [einPointer k (some x) n, einCArray k x n], OpTyped o ∧ OpConsistent o ∧ OpUses o k ∧
      dimFor k o = some ⟨0, n, 1⟩ ∧
      (OpInRange o i ↔ 0 ≤ i.getD k 0 ∧ i.getD k 0 < n) ∧ o.address i = some (x + i.getD k 0) ∧
      o.eval m i = some (m (x + i.getD k 0))) ∧
    OpTyped (einScalar x : EinOp α) ∧ (∀ t, ¬ OpUses (einScalar x : EinOp α) t ∧ dimFor t (einScalar x : EinOp α) = none) ∧
    OpInRange (einScalar x : EinOp α) i ∧ (einScalar x : EinOp α).address i = some x ∧ (einScalar x).eval m i = some (m x) := by
  have key : ∀ (o : EinOp α) (t : DimT), o = ⟨.arr (some x) [⟨t, ⟨0, n, 1⟩⟩], [k]⟩ → Fits t ⟨0, n, 1⟩ →
      OpTyped o ∧ OpConsistent o ∧ OpUses o k ∧ dimFor k o = some ⟨0, n, 1⟩ ∧
      (OpInRange o i ↔ 0 ≤ i.getD k 0 ∧ i.getD k 0 < n) ∧ o.address i = some (x + i.getD k 0) ∧
      o.eval m i = some (m (x + i.getD k 0)) := by
    rintro o t rfl hf
    refine ⟨⟨rfl, by simpa using hf⟩, ?_, by simp [OpUses], by simp [dimFor, einDims], ?_, ?_, ?_⟩
    · intro p q t d e hp hq hd he
      match p, q, hp, hq, hd, he with
      | 0, 0, _, _, hd, he =>
        rw [hd] at he
        obtain rfl := Option.some.inj he
        exact ⟨rfl, rfl⟩
      | p + 1, _, hp, _, _, _ => simp at hp
      | _, q + 1, _, hq, _, _ => simp at hq
    · simp only [OpInRange, pick, List.map_cons, List.map_nil, inBox_iff_get]
      constructor
      · intro h
        have := h.2 0 _ _ rfl rfl
        simpa using this
      · intro h
        refine ⟨rfl, fun p d y hd hy => ?_⟩
        match p, hd, hy with
        | 0, hd, hy =>
          simp only [List.getElem?_cons_zero, Option.some.injEq] at hd hy
          subst hd hy
          simpa using h
        | p + 1, hd, _ => simp at hd
    · simp [EinOp.address, EinOp.args, values, Shape.flatOffset, Dim.flatOffset, Nda.sum]
    · simp [EinOp.eval, EinOp.args, values, Shape.flatOffset, Dim.flatOffset, Nda.sum]
  refine ⟨?_, ⟨rfl, by simp⟩, fun t => ⟨by simp [OpUses, einScalar], by simp [dimFor, einScalar, einDims]⟩, ?_, ?_, ?_⟩
  · intro o ho
    rcases List.mem_cons.1 ho with rfl | ho
    · exact key _ ⟨0, dynamic, 1⟩ (by
        simp [einPointer, DimT.ofExtent, DimT.make, ciInit, isStatic, dynamic])
        (by simp [Fits, Describes, dynamic])
    · obtain rfl := List.mem_singleton.1 ho
      have hn : (n : Int) ≠ -9 := by omega
      exact key _ ⟨0, n, 1⟩ (by
        simp [einCArray, DimT.default_, DimT.ofExtent, DimT.make, ciInit, isStatic, dynamic, hn])
        (by simp [Fits, Describes])
  · simp [OpInRange, einScalar, pick, InBox]
  · simp [EinOp.address, einScalar, EinOp.args, values, Shape.flatOffset, Nda.sum]
  · simp [EinOp.eval, einScalar, EinOp.args, values, Shape.flatOffset, Nda.sum]

-- the sum over `k` needs equal bounds, though a loop over 4 indices would be in range of a vector of 5
example :
    let A : EinOp Int := einMat 0 ⟨DimT.any, ⟨0, 3, 4⟩⟩ ⟨DimT.any, ⟨0, 4, 1⟩⟩ 0 1
    let y : EinOp Int := einVec 100 ⟨DimT.any, ⟨0, 3, 1⟩⟩ 0
    einAssert y (.binary (· * ·) (.op A) (.op (einVec 200 ⟨DimT.any, ⟨0, 4, 1⟩⟩ 1))) = true ∧
    einAssert y (.binary (· * ·) (.op A) (.op (einVec 200 ⟨DimT.any, ⟨0, 5, 1⟩⟩ 1))) = false := by decide +kernel

-- along an index of the result the operand may be larger, not smaller; a result of stride 0 needs equal bounds
example :
    einAssert (einVec 100 ⟨DimT.any, ⟨1, 3, 1⟩⟩ 0 : EinOp Int) (.op (einVec 200 ⟨DimT.any, ⟨0, 5, 1⟩⟩ 0)) = true ∧
    einAssert (einVec 100 ⟨DimT.any, ⟨1, 3, 1⟩⟩ 0 : EinOp Int) (.op (einVec 200 ⟨DimT.any, ⟨2, 5, 1⟩⟩ 0)) = false ∧
    einAssert (einVec 100 ⟨DimT.any, ⟨1, 3, 0⟩⟩ 0 : EinOp Int) (.op (einVec 200 ⟨DimT.any, ⟨0, 5, 1⟩⟩ 0)) = false := by
  decide +kernel

-- all indices of the result of `make_ein_sum` are checked; the order of the operands matters
example :
    let x : EinExpr Int := .op (einVec 0 ⟨DimT.any, ⟨0, 3, 1⟩⟩ 0)
    let y : EinExpr Int := .op (einVec 100 ⟨DimT.any, ⟨0, 5, 1⟩⟩ 0)
    let z : EinExpr Int := .op (einVec 200 ⟨DimT.any, ⟨0, 2, 1⟩⟩ 1)
    makeEinReduceShapeAssert [1, 0] (.binary (· * ·) (.binary (· + ·) x y) z) = true ∧
    makeEinReduceShapeAssert [1, 0] (.binary (· * ·) (.binary (· + ·) y x) z) = false := by decide +kernel

end Nda
