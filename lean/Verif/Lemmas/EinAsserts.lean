import Verif.Spec.EinAsserts
import Verif.Lemmas.Ein
import Verif.Props.EinSum
/-
The dims that the bounds checks of Einstein reductions compare.
-/
namespace Nda
open Spec
variable {α : Type}

/-- What `gather_dims` finds in an operand. -/
theorem gather_values {o : EinOp α} (ht : OpTyped o) (k : Nat) :
    (o.gatherDims k .result).map SDim.val = (dimFor k o).toList ∧
    (o.gatherDims k .operand).map SDim.val = ((dimFor k o).toList.map fun d => ⟨d.min, d.extent, 0⟩) ∧
    ∃ c : Int, c ≠ 0 ∧ (o.gatherDims k .inferred).map SDim.val = (dimFor k o).toList.map fun d => ⟨d.min, d.extent, c⟩ := by
  obtain ⟨op, is⟩ := o
  cases op with
  | fn f => exact ⟨by simp [EinOp.gatherDims, EinSrc.dimsOf, einDims, getOrEmpty_eq, dimFor],
      by simp [EinOp.gatherDims, EinSrc.dimsOf, einDims, getOrEmpty_eq, dimFor],
      1, by decide, by simp [EinOp.gatherDims, EinSrc.dimsOf, einDims, getOrEmpty_eq, dimFor]⟩
  | arr base dims =>
    simp only [OpTyped] at ht
    have hz := find_zip_indexOf k is (dims.map SDim.val) (by simpa using ht.1)
    have hz' : dimFor k (⟨.arr base dims, is⟩ : EinOp α) = dims[indexOf k is]?.map SDim.val := by
      show ((is.zip (dims.map SDim.val)).find? fun p => p.1 == k).map Prod.snd = _
      rw [hz, List.getElem?_map]
    rw [hz']
    simp only [EinOp.gatherDims, EinSrc.dimsOf, getOrEmpty_eq]
    cases hd : dims[indexOf k is]? with
    | none => exact ⟨rfl, rfl, 1, by decide, rfl⟩
    | some x =>
      have hf := ht.2 x (List.mem_of_getElem? hd)
      have h1 := withStride_val 0 hf
      have h2 := withStride_val dynamic hf
      refine ⟨rfl, ?_, (x.withStride dynamic).val.stride, ?_, ?_⟩
      · show [(x.withStride 0).val] = [_]
        dsimp only
        rw [← h1.1, ← h1.2]
        rfl
      · simp [SDim.withStride, DimT.make, ciInit, DimT.defaultStride, isStatic, dynamic, unresolved]
      · show [(x.withStride dynamic).val] = [_]
        dsimp only
        rw [← h2.1, ← h2.2]

/-- What `reconcile_dim` requires, in terms of the values of the dims. -/
theorem reconcileAssert_iff (l : List SDim) : reconcileAssert l = true ↔
    ∀ d0, (l.map SDim.val).head? = some d0 → ∀ d ∈ l.map SDim.val,
      (d0.stride = 0 → EqBounds d d0) ∧ (d0.stride ≠ 0 → Covers d d0) := by
  cases l with
  | nil => simp [reconcileAssert]
  | cons d0 ds =>
    simp only [List.map_cons, List.head?_cons, Option.some.injEq, forall_eq', List.mem_cons, forall_eq_or_imp]
    have triv : (d0.val.stride = 0 → EqBounds d0.val d0.val) ∧ (d0.val.stride ≠ 0 → Covers d0.val d0.val) :=
      ⟨fun _ => ⟨rfl, rfl⟩, fun _ => ⟨le_refl _, le_refl _⟩⟩
    rw [show (((d0.val.stride = 0 → EqBounds d0.val d0.val) ∧ (d0.val.stride ≠ 0 → Covers d0.val d0.val)) ∧
      ∀ a ∈ ds.map SDim.val, (d0.val.stride = 0 → EqBounds a d0.val) ∧ (d0.val.stride ≠ 0 → Covers a d0.val)) ↔
      ∀ a ∈ ds.map SDim.val, (d0.val.stride = 0 → EqBounds a d0.val) ∧ (d0.val.stride ≠ 0 → Covers a d0.val)
      from and_iff_right triv]
    dsimp only [reconcileAssert]
    by_cases h : d0.val.stride = 0
    · rw [if_neg (by simp [h]), Bool.and_eq_true, all_iff, all_iff]
      simp only [List.mem_map, forall_exists_index, and_imp, forall_apply_eq_imp_iff₂, beq_iff_eq]
      constructor
      · intro hh x hx
        exact ⟨fun _ => ⟨(hh.1 x hx).symm, (hh.2 x hx).symm⟩, fun hn => absurd h hn⟩
      · intro hh
        exact ⟨fun x hx => ((hh x hx).1 h).1.symm, fun x hx => ((hh x hx).1 h).2.symm⟩
    · rw [if_pos h, all_iff]
      simp only [List.mem_map, forall_exists_index, and_imp, forall_apply_eq_imp_iff₂]
      have e : ∀ x : SDim, x.val.isInRangeI d0.val.toInterval = true ↔ Covers x.val d0.val := by
        intro x
        simp only [Dim.isInRangeI, Interval.max, Dim.max, Dim.toInterval, Bool.and_eq_true, Covers]
        constructor
        · intro hh
          have h1 := of_decide_eq_true hh.1
          have h2 := of_decide_eq_true hh.2
          omega
        · intro hh
          exact ⟨decide_eq_true hh.1, decide_eq_true (by omega)⟩
      constructor
      · intro hh x hx
        exact ⟨fun h0 => absurd h0 h, fun _ => (e x).1 (hh x hx)⟩
      · intro hh x hx
        exact (e x).2 ((hh x hx).2 h)

theorem dimFor_uses {o : EinOp α} {k : Nat} {d : Dim} (h : dimFor k o = some d) : k ∈ o.is := by
  unfold dimFor at h
  rw [Option.map_eq_some_iff] at h
  obtain ⟨p, hp, rfl⟩ := h
  have h1 := List.find?_some hp
  have h2 := (List.of_mem_zip (List.mem_of_find?_eq_some hp)).1
  simp only [beq_iff_eq] at h1
  rwa [h1] at h2

theorem firstUse_cons (k : Nat) (o : EinOp α) (ops : List (EinOp α)) :
    firstUse k (o :: ops) = (dimFor k o).or (firstUse k ops) := by
  unfold firstUse dimFor
  rw [List.findSome?_cons]
  cases ((o.is.zip (einDims o.op)).find? fun p => p.1 == k).map Prod.snd <;> rfl

end Nda
