import Verif.Props.EinArray
import Mathlib.Algebra.BigOperators.Ring.Finset
/-
C72, matrix products of arrays: their values, `(AB)C == A(BC)`, and the product of the transposes.
-/
namespace Nda
open Spec

variable {V : Type}

theorem SameLoops.uniform {B : Nat → Int × Int} {e : EinTerm V} (h : SameLoops B (termRefs e)) :
    Uniform B (leaves e.expr) := by
  intro o ho p k d hp hd
  rcases mem_leaves_expr ho with ⟨r, hr, rfl⟩ | ⟨f, is, rfl⟩
  · simp only [EinRef.op, einDims, List.getElem?_map, Option.map_eq_some_iff] at hp hd
    obtain ⟨x, hx, rfl⟩ := hd
    exact h r hr p k x hp hx
  · simp [einDims] at hd

theorem firstUse_pos {ops : List (EinOp V)} {k : Nat} {d : Dim} (h : firstUse k ops = some d) :
    ∃ o ∈ ops, ∃ p : Nat, o.is[p]? = some k ∧ (einDims o.op)[p]? = some d := by
  unfold firstUse at h
  rw [List.findSome?_eq_some_iff] at h
  obtain ⟨l1, o, l2, e, h, _⟩ := h
  refine ⟨o, by simp [e], ?_⟩
  rw [Option.map_eq_some_iff] at h
  obtain ⟨⟨k', d'⟩, hp, rfl⟩ := h
  have hk : k' = k := by simpa using List.find?_some hp
  subst hk
  obtain ⟨p, hp⟩ := List.mem_iff_getElem?.1 (List.mem_of_find?_eq_some hp)
  rw [List.getElem?_zip_eq_some] at hp
  exact ⟨p, hp.1, hp.2⟩

/-- C72: if all dims addressed by the same loop index have the same bounds, then the assertions of `make_ein_sum` hold. -/
theorem C72_same_loops (w : World V) (B : Nat → Int × Int) (x : Nat) (ris : List Nat) (e : EinTerm V)
    (href : ∀ r ∈ termRefs e, RefOk w r) (hB : SameLoops B (termRefs e)) (hu : ∀ k ∈ ris, ∃ r ∈ termRefs e, k ∈ r.is) :
    makeEinReduceShapeAssert ris e.expr = true ∧
      einAssert (EinRef.op ⟨x, makeEinReduceShape ris e.expr, 0, ris⟩) e.expr = true ∧
      SameLoops B [⟨x, makeEinReduceShape ris e.expr, 0, ris⟩] := by
  have ht : ∀ o ∈ leaves e.expr, OpTyped o := by
    intro o ho
    rcases mem_leaves_expr ho with ⟨r, hr, rfl⟩ | ⟨f, is, rfl⟩
    · exact (href r hr).opTyped
    · trivial
  have hu' : ∀ k ∈ ris, ∃ o ∈ leaves e.expr, OpUses o k := by
    intro k hk
    obtain ⟨r, hr, hkr⟩ := hu k hk
    exact ⟨r.op, refs_mem_leaves hr, hkr⟩
  have hU := SameLoops.uniform hB
  have hsh := C43_shape ris e.expr ht hu'
  have hlhs : SameLoops B [⟨x, makeEinReduceShape ris e.expr, 0, ris⟩] := by
    intro r hr p k d hp hd
    simp only [List.mem_singleton] at hr
    subst hr
    obtain ⟨hp1, hp2⟩ := List.getElem?_eq_some_iff.1 hp
    obtain ⟨hx1, hx2⟩ := List.getElem?_eq_some_iff.1 hd
    obtain ⟨u, u1, u2, u3, _⟩ := (List.forall₂_iff_get.1 hsh).2 p hp1 hx1
    simp only [List.get_eq_getElem] at u1 u2 u3
    dsimp only at hp2 hx2
    rw [hp2] at u1
    rw [hx2] at u2 u3
    obtain ⟨o, ho, q, hq, hq'⟩ := firstUse_pos u1
    have := hU o ho q k u hq hq'
    exact ⟨u2.trans this.1, u3.trans this.2⟩
  refine ⟨?_, ?_, hlhs⟩
  · unfold makeEinReduceShapeAssert
    rw [List.all_eq_true]
    intro k _
    have hb : ∀ y ∈ e.expr.gatherDims k .inferred, y.val.min = (B k).1 ∧ y.val.extent = (B k).2 := by
      intro y hy
      rw [gatherDims_eq] at hy
      obtain ⟨o, ho, hy⟩ := List.mem_flatMap.1 hy
      obtain ⟨z, hz, h1, h2⟩ := gatherDims_bounds (ht o ho) hy
      obtain ⟨q, h3, h4⟩ := mem_gather (ht o ho) ⟨z, hz, rfl⟩
      have := hU o ho q k _ h3 h4
      exact ⟨h1.trans this.1, h2.trans this.2⟩
    cases he : e.expr.gatherDims k .inferred with
    | nil => rfl
    | cons d0 ds =>
      rw [he] at hb
      have h0 := hb d0 (by simp)
      dsimp only [reconcileAssert]
      split
      · rw [all_iff]
        intro b hb'
        obtain ⟨x, hx, rfl⟩ := List.mem_map.1 hb'
        have := hb x (by simp [hx])
        simp only [Dim.isInRangeI, Interval.max, Dim.max, Dim.toInterval, Bool.and_eq_true]
        refine ⟨decide_eq_true ?_, decide_eq_true ?_⟩ <;> omega
      · rw [Bool.and_eq_true, all_iff, all_iff]
        constructor
        · intro b hb'
          obtain ⟨x, hx, rfl⟩ := List.mem_map.1 hb'
          have := hb x (by simp [hx])
          simp only [beq_iff_eq]; omega
        · intro b hb'
          obtain ⟨x, hx, rfl⟩ := List.mem_map.1 hb'
          have := hb x (by simp [hx])
          simp only [beq_iff_eq]; omega
  · refine Uniform.einAssert (B := B) ?_ ?_
    · intro o ho
      rcases List.mem_cons.1 ho with rfl | ho
      · intro p k d hp hd
        simp only [EinRef.op, einDims, List.getElem?_map, Option.map_eq_some_iff] at hp hd
        obtain ⟨y, hy, rfl⟩ := hd
        exact hlhs _ (List.mem_singleton.2 rfl) p k y hp hy
      · exact hU o ho
    · intro o ho
      rcases List.mem_cons.1 ho with rfl | ho
      · refine ⟨hsh.length_eq, fun d hd => ?_⟩
        obtain ⟨i, hi, rfl⟩ := List.mem_iff_getElem.1 hd
        have := (List.forall₂_iff_get.1 hsh).2 i (by rw [hsh.length_eq]; exact hi) hi
        obtain ⟨_, _, _, _, h⟩ := this
        exact h
      · exact ht o ho

/-- `ein<i, k>(A) * ein<k, j>(B)` for arrays `x` and `y` with dims `dx` and `dy`. -/
def matTerm [Mul V] (x : Nat) (dx : List SDim) (y : Nat) (dy : List SDim) (i j k : Nat) : EinTerm V :=
  .binary (· * ·) (.ref ⟨x, dx, 0, [i, k]⟩) (.ref ⟨y, dy, 0, [k, j]⟩)

/-- The product of two matrices given by their elements, summing over `[m, m + e)`. -/
def matMul [NonUnitalNonAssocSemiring V] (m e : Int) (f g : Index → V) : Index → V := fun p =>
  ∑ z ∈ Finset.Ico m (m + e), f [p.getD 0 0, z] * g [z, p.getD 1 0]

/-- The dims of an array of rank 2. -/
theorem RefOk.whole {ty : Types V} {w : World V} (hI : Inv ty w) {x : Nat} {d0 d1 : SDim} {f : Index → V}
    (hf : Contents w x [d0.val, d1.val] f) (h0 : Fits d0.ty d0.val) (h1 : Fits d1.ty d1.val) {i k : Nat} (hik : i ≠ k) :
    RefOk w ⟨x, [d0, d1], 0, [i, k]⟩ := by
  obtain ⟨a, ha, -, -, hp, -⟩ := hf.part hI
  refine ⟨⟨a, ha, hp⟩, ⟨rfl, ?_⟩, ?_⟩
  · intro d hd
    simp only [List.mem_cons, List.not_mem_nil, or_false] at hd
    rcases hd with rfl | rfl <;> assumption
  · intro p q t d e hp hq hd he
    dsimp only at hp hq hd he
    match p, q with
    | 0, 0 => simp at hd he; subst hd he; exact ⟨rfl, rfl⟩
    | 1, 1 => simp at hd he; subst hd he; exact ⟨rfl, rfl⟩
    | 0, 1 => simp at hp hq; omega
    | 1, 0 => simp at hp hq; omega
    | p + 2, _ => simp at hp
    | _, q + 2 => simp at hq

theorem inBox2 {d0 d1 : Dim} {x y : Int} : InBox [d0, d1] [x, y] ↔
    (d0.min ≤ x ∧ x < d0.min + d0.extent) ∧ d1.min ≤ y ∧ y < d1.min + d1.extent := by
  simp [InBox]

theorem inBox2_elim {d0 d1 : Dim} {r : Index} (h : InBox [d0, d1] r) : ∃ x y, r = [x, y] := by
  match r with
  | [x, y] => exact ⟨x, y, rfl⟩
  | [] => simp [InBox] at h
  | [_] => simp [InBox] at h
  | _ :: _ :: _ :: _ => simp [InBox] at h

/-- C72: `AB = make_ein_sum<T, i, j>(ein<i, k>(A) * ein<k, j>(B), init, alloc)` for arrays `A` (number `x`, with elements `f`) and
`B` (number `y`, with elements `g`) of a program, which may be the same: a new, dense array with the elements of the matrix
product; `A`, `B` and all other arrays are unchanged. -/
theorem C72_product [NonUnitalNonAssocSemiring V] (ty : Types V) (hdef : TypesOk ty)
    (hrank : List.length ty.defaultShape = 2) (w : World V) (hw : Reachable ty w) (x y : Nat) (a0 a1 b0 b1 : SDim)
    (hg : ∀ d ∈ [a0, a1, b0, b1], Fits d.ty d.val) (f g : Index → V) (hx : Contents w x [a0.val, a1.val] f)
    (hy : Contents w y [b0.val, b1.val] g) (hb : SameBounds b0 a1) (ha0 : 0 < a0.val.extent) (hb1 : 0 < b1.val.extent)
    (hfit : a0.val.extent * b1.val.extent ≤ 9223372036854775807) (i j k : Nat) (hij : i ≠ j) (hik : i ≠ k) (hjk : j ≠ k)
    (init : V) (al : Nat) :
    ∃ w' d0 d1, makeEinSumArray ty (· + ·) [i, j] (matTerm x [a0, a1] y [b0, b1] i j k) init al w = .ok w' ∧ Reachable ty w' ∧
      w'.nextVar = w.nextVar + 1 ∧ makeEinReduceShape [i, j] (matTerm x [a0, a1] y [b0, b1] i j k : EinTerm V).expr = [d0, d1] ∧
      Fits d0.ty d0.val ∧ Fits d1.ty d1.val ∧
      d0.val = ⟨a0.val.min, a0.val.extent, 1⟩ ∧ d1.val = ⟨b1.val.min, b1.val.extent, a0.val.extent⟩ ∧
      Contents w' w.nextVar [d0.val, d1.val] (fun p => init + matMul a1.val.min a1.val.extent f g p) ∧
      ∀ z s h, Contents w z s h → Contents w' z s h := by
  have hI := hw.inv hdef
  obtain ⟨a, hav, has, -, hpa, hra⟩ := hx.part hI
  obtain ⟨b, hbv, hbs, -, hpb, hrb⟩ := hy.part hI
  generalize hterm : (matTerm x [a0, a1] y [b0, b1] i j k : EinTerm V) = e
  have href : ∀ r ∈ termRefs e, RefOk w r := by
    intro r hr
    rw [← hterm] at hr
    simp only [matTerm, termRefs, List.cons_append, List.nil_append, List.mem_cons, List.not_mem_nil, or_false] at hr
    rcases hr with rfl | rfl
    · exact RefOk.whole hI hx (hg a0 (by simp)) (hg a1 (by simp)) hik
    · exact RefOk.whole hI hy (hg b0 (by simp)) (hg b1 (by simp)) (Ne.symm hjk)
  have hu : ∀ t ∈ [i, j], ∃ r ∈ termRefs e, t ∈ r.is := by
    intro t ht
    simp only [List.mem_cons, List.not_mem_nil, or_false] at ht
    rw [← hterm]
    rcases ht with rfl | rfl
    · exact ⟨⟨x, [a0, a1], 0, [t, k]⟩, by simp [matTerm, termRefs], by simp⟩
    · exact ⟨⟨y, [b0, b1], 0, [k, t]⟩, by simp [matTerm, termRefs], by simp⟩
  let B : Nat → Int × Int := fun t => if t = i then (a0.val.min, a0.val.extent) else
    if t = j then (b1.val.min, b1.val.extent) else (a1.val.min, a1.val.extent)
  have hB : SameLoops B (termRefs e) := by
    intro r hr p t d hp hd
    rw [← hterm] at hr
    simp only [matTerm, termRefs, List.cons_append, List.nil_append, List.mem_cons, List.not_mem_nil, or_false] at hr
    have hki : k ≠ i := Ne.symm hik
    have hkj : k ≠ j := Ne.symm hjk
    have hji : j ≠ i := Ne.symm hij
    rcases hr with rfl | rfl
    · match p with
      | 0 => simp at hp hd; subst hp hd; simp [B]
      | 1 => simp at hp hd; subst hp hd; simp [B, hki, hkj]
      | p + 2 => simp at hp
    · match p with
      | 0 => simp at hp hd; subst hp hd; simp only [B, if_neg hki, if_neg hkj]; exact hb
      | 1 => simp at hp hd; subst hp hd; simp [B, hji]
      | p + 2 => simp at hp
  obtain ⟨has1, has2, has3⟩ := C72_same_loops w B w.nextVar [i, j] e href hB hu
  have ht : ∀ o ∈ leaves e.expr, OpTyped o := by
    intro o ho
    rcases mem_leaves_expr ho with ⟨r, hr, rfl⟩ | ⟨f, is, rfl⟩
    · exact (href r hr).opTyped
    · trivial
  have hu' : ∀ t ∈ [i, j], ∃ o ∈ leaves e.expr, OpUses o t := by
    intro t ht
    obtain ⟨r, hr, hkr⟩ := hu t ht
    exact ⟨r.op, refs_mem_leaves hr, hkr⟩
  have hsh := C43_shape [i, j] e.expr ht hu'
  obtain ⟨d0, d1, hd⟩ : ∃ d0 d1, makeEinReduceShape [i, j] e.expr = [d0, d1] := by
    have hl := hsh.length_eq
    match makeEinReduceShape [i, j] e.expr, hl with
    | [d0, d1], _ => exact ⟨d0, d1, rfl⟩
  rw [hd] at hsh has2 has3
  have hb0 := has3 _ (List.mem_singleton.2 rfl) 0 i d0 rfl rfl
  have hb1' := has3 _ (List.mem_singleton.2 rfl) 1 j d1 rfl rfl
  simp only [B, if_pos, if_neg (Ne.symm hij)] at hb0 hb1'
  have hpos : Pos ((makeEinReduceShape [i, j] e.expr).map SDim.val) := by
    rw [hd]
    intro d hd
    simp only [List.map_cons, List.map_nil, List.mem_cons, List.not_mem_nil, or_false] at hd
    rcases hd with rfl | rfl <;> omega
  have hfit' : (((makeEinReduceShape [i, j] e.expr).map SDim.val).map Dim.extent).prod ≤ 9223372036854775807 := by
    rw [hd]
    simp only [List.map_cons, List.map_nil, List.prod_cons, List.prod_nil, mul_one, hb0.2, hb1'.2]
    exact hfit
  have hstr := (einShape_strides ht hu' hpos hfit').1
  rw [hd] at hstr
  simp only [values, List.map_cons, List.map_nil, prodStrides, List.cons.injEq, and_true, one_mul] at hstr
  have hv0 : d0.val = ⟨a0.val.min, a0.val.extent, 1⟩ := by rw [← hstr.1, hb0.1, hb0.2]
  have hv1 : d1.val = ⟨b1.val.min, b1.val.extent, a0.val.extent⟩ := by rw [← hstr.2, hb1'.1, hb1'.2, hb0.2]
  have hfits : Fits d0.ty d0.val ∧ Fits d1.ty d1.val := by
    cases hsh with
    | cons h1 h =>
      cases h with
      | cons h2 _ =>
        obtain ⟨_, _, _, _, h1⟩ := h1
        obtain ⟨_, _, _, _, h2⟩ := h2
        exact ⟨h1, h2⟩
  obtain ⟨w', G, a', e1, hr', hav', hnv, hs', -, -, -, -, hG, hsum, hframe⟩ :=
    C72_make_sum ty hdef w hw [i, j] e init al href hu hrank.symm (by rw [hd]; exact has2) has1 hpos hfit'
  rw [hd] at hs'
  simp only [List.map_cons, List.map_nil] at hs'
  refine ⟨w', d0, d1, e1, hr', hnv, hd, hfits.1, hfits.2, hv0, hv1, ⟨⟨a', hav', hs'⟩, ?_⟩, ?_⟩
  · intro r hr
    obtain ⟨p0, p1, rfl⟩ := inBox2_elim hr
    have hbx := inBox2.1 hr
    have hU := SameLoops.uniform hB
    have hle : leaves e.expr = [einMat 0 a0 a1 i k, einMat 0 b0 b1 k j] := by rw [← hterm]; rfl
    have hlr : ∀ t, (t = i ∨ t = j ∨ t = k) → t < loopRank (leaves e.expr) := by
      intro t ht
      rw [hle]
      rcases ht with rfl | rfl | rfl
      · exact lt_loopRank (o := einMat 0 a0 a1 t k) (by simp) (by simp [einMat])
      · exact lt_loopRank (o := einMat 0 b0 b1 k t) (by simp) (by simp [einMat])
      · exact lt_loopRank (o := einMat 0 a0 a1 i t) (by simp) (by simp [einMat])
    have huse : ∀ t, (∃ o ∈ leaves e.expr, OpUses o t) ↔ t = i ∨ t = j ∨ t = k := by
      intro t
      rw [hle]
      simp only [List.mem_cons, List.not_mem_nil, or_false, exists_eq_or_imp, exists_eq_left, uses_mat]
      tauto
    let fixed : Nat → Int := fun t => if t = i then p0 else if t = j then p1 else 0
    obtain ⟨hnd, hmem⟩ := loop_enum1 hU ht [i, j] (fun t ht => hlr t (by simp at ht; tauto)) k (hlr k (by simp))
      (by simp [Ne.symm hik, Ne.symm hjk]) ((huse k).2 (by simp)) fixed (by
        intro t htl htk
        refine ⟨fun h => ?_, fun h => ?_⟩
        · rcases (huse t).1 h with rfl | rfl | rfl
          · simp only [B, fixed, if_pos]; omega
          · simp only [B, fixed, if_neg (Ne.symm hij), if_pos]; omega
          · exact absurd rfl htk
        · have : ¬ (t = i ∨ t = j ∨ t = k) := by
            rw [← huse]; push Not; exact h
          push Not at this
          simp [fixed, this.1, this.2.1])
      (by
        intro o ho t h
        rcases (huse t).1 ⟨o, ho, h⟩ with rfl | rfl | rfl <;> simp)
    have hfx : [i, j].map fixed = [p0, p1] := by simp [fixed, Ne.symm hij]
    rw [hfx] at hmem
    rw [hsum [p0, p1] (by rw [hs']; exact hr) _ hnd hmem]
    congr 2
    rw [List.map_map]
    unfold matMul
    have hbk : (B k) = (a1.val.min, a1.val.extent) := by simp [B, Ne.symm hik, Ne.symm hjk]
    rw [hbk]
    dsimp only
    rw [← sum_ints]
    congr 1
    apply List.map_congr_left
    intro z hz
    have hz' := mem_ints.1 hz
    have hL := (hmem ((List.range (loopRank (leaves e.expr))).map (Function.update fixed k z))).1
      (List.mem_map.2 ⟨z, by rw [hbk]; exact hz, rfl⟩)
    have hval := hG _ hL.1 (by rw [hL.2, hs']; exact hr)
    have hpk : ∀ s t, (s = i ∨ s = j ∨ s = k) → (t = i ∨ t = j ∨ t = k) →
        pick [s, t] ((List.range (loopRank (leaves e.expr))).map (Function.update fixed k z)) =
          [Function.update fixed k z s, Function.update fixed k z t] := by
      intro s t hs ht
      rw [pick_map_range]
      · rfl
      · intro u hu
        simp only [List.mem_cons, List.not_mem_nil, or_false] at hu
        rcases hu with rfl | rfl
        · exact hlr _ hs
        · exact hlr _ ht
    have hui : Function.update fixed k z i = p0 := by rw [Function.update_of_ne hik]; simp [fixed]
    have huj : Function.update fixed k z j = p1 := by rw [Function.update_of_ne hjk]; simp [fixed, Ne.symm hij]
    have huk : Function.update fixed k z k = z := Function.update_self ..
    rw [← hterm] at hval hpk
    simp only [matTerm, termAt] at hval hpk
    rw [hpk i k (by simp) (by simp), hpk k j (by simp) (by simp), hui, huj, huk] at hval
    have h1 := hra [p0, z] (inBox2.2 ⟨by omega, by omega⟩)
    have h2 := hrb [z, p1] (inBox2.2 ⟨by have := hb.1; have := hb.2; omega, by omega⟩)
    simp only [List.map_cons, List.map_nil] at hval
    rw [h1, h2] at hval
    rw [← hterm]
    simp only [matTerm, Function.comp]
    have := hval
    simp only [Except.bind, Except.map, Except.ok.injEq] at this
    rw [← this]
    rfl
  · intro z s h hz
    obtain ⟨⟨c, hc, hcs⟩, hel⟩ := hz
    have hzn : z ≠ w.nextVar := by have := hI.lt hc; omega
    refine ⟨⟨c, by rw [(hframe z hzn).1]; exact hc, hcs⟩, fun i hi => ?_⟩
    rw [(hframe z hzn).2 c i hc (by rw [hcs]; exact hi)]
    exact hel i hi

theorem matMul_assoc [NonUnitalSemiring V] (m e m' e' : Int) (f g h : Index → V) (p0 p1 : Int) :
    matMul m' e' (fun p => 0 + matMul m e f g p) h [p0, p1] = matMul m e f (fun p => 0 + matMul m' e' g h p) [p0, p1] := by
  simp only [matMul, zero_add, List.getD_cons_zero, List.getD_cons_succ, Finset.sum_mul, Finset.mul_sum]
  rw [Finset.sum_comm]
  simp only [mul_assoc]

/-- C72: a program that computes `(AB)C` and `A(BC)` with four calls of `make_ein_sum` gets two arrays that compare equal with `==`
(in particular their shapes are the same), whenever addition and multiplication of the elements are those of a ring (not
necessarily commutative); `A`, `B` and `C` may be the same arrays, and are unchanged. -/
theorem C72_assoc [NonUnitalSemiring V] (ty : Types V) (hdef : TypesOk ty)
    (hrank : List.length ty.defaultShape = 2) (w : World V) (hw : Reachable ty w) (x y z : Nat) (a0 a1 b0 b1 c0 c1 : SDim)
    (hg : ∀ d ∈ [a0, a1, b0, b1, c0, c1], Fits d.ty d.val) (f g h : Index → V) (hx : Contents w x [a0.val, a1.val] f)
    (hy : Contents w y [b0.val, b1.val] g) (hz : Contents w z [c0.val, c1.val] h) (hb : SameBounds b0 a1) (hc : SameBounds c0 b1)
    (ha0 : 0 < a0.val.extent) (hb0 : 0 < b0.val.extent) (hb1 : 0 < b1.val.extent) (hc1 : 0 < c1.val.extent)
    (hfab : a0.val.extent * b1.val.extent ≤ 9223372036854775807) (hfac : a0.val.extent * c1.val.extent ≤ 9223372036854775807)
    (hfbc : b0.val.extent * c1.val.extent ≤ 9223372036854775807)
    (i j k : Nat) (hij : i ≠ j) (hik : i ≠ k) (hjk : j ≠ k) (al : Nat) (ne : V → V → Bool) (hne : ∀ v, ne v v = false) :
    ∃ w1 w2 w3 w4 dab dbc,
      dab = makeEinReduceShape [i, j] (matTerm x [a0, a1] y [b0, b1] i j k : EinTerm V).expr ∧
      dbc = makeEinReduceShape [i, j] (matTerm y [b0, b1] z [c0, c1] i j k : EinTerm V).expr ∧
      makeEinSumArray ty (· + ·) [i, j] (matTerm x [a0, a1] y [b0, b1] i j k) 0 al w = .ok w1 ∧
      makeEinSumArray ty (· + ·) [i, j] (matTerm w.nextVar dab z [c0, c1] i j k) 0 al w1 = .ok w2 ∧
      makeEinSumArray ty (· + ·) [i, j] (matTerm y [b0, b1] z [c0, c1] i j k) 0 al w2 = .ok w3 ∧
      makeEinSumArray ty (· + ·) [i, j] (matTerm x [a0, a1] w2.nextVar dbc i j k) 0 al w3 = .ok w4 ∧
      Reachable ty w4 ∧ arraysEq ty ne w1.nextVar w3.nextVar w4 = .ok true ∧
      ∀ u s q, Contents w u s q → Contents w4 u s q := by
  obtain ⟨w1, d0, d1, e1, hw1, hn1, hd, hF0, hF1, hv0, hv1, hC1, hfr1⟩ := C72_product ty hdef hrank w hw x y a0 a1 b0 b1
    (fun d hd => hg d (by simp at hd ⊢; tauto)) f g hx hy hb ha0 hb1 hfab i j k hij hik hjk 0 al
  obtain ⟨w2, p0, p1, e2, hw2, hn2, -, -, -, hpv0, hpv1, hC2, hfr2⟩ := C72_product ty hdef hrank w1 hw1 w.nextVar z d0 d1 c0 c1
    (by
      intro d hd
      simp only [List.mem_cons, List.not_mem_nil, or_false] at hd
      rcases hd with rfl | rfl | rfl | rfl
      · exact hF0
      · exact hF1
      · exact hg _ (by simp)
      · exact hg _ (by simp))
    _ h hC1 (hfr1 _ _ _ hz) (by unfold SameBounds; rw [hv1]; exact hc) (by rw [hv0]; exact ha0) hc1 (by rw [hv0]; exact hfac)
    i j k hij hik hjk 0 al
  obtain ⟨w3, r0, r1, e3, hw3, hn3, hrd, hR0, hR1, hrv0, hrv1, hC3, hfr3⟩ := C72_product ty hdef hrank w2 hw2 y z b0 b1 c0 c1
    (fun d hd => hg d (by simp at hd ⊢; tauto)) g h (hfr2 _ _ _ (hfr1 _ _ _ hy)) (hfr2 _ _ _ (hfr1 _ _ _ hz)) hc hb0 hc1 hfbc
    i j k hij hik hjk 0 al
  obtain ⟨w4, q0, q1, e4, hw4, hn4, -, -, -, hqv0, hqv1, hC4, hfr4⟩ := C72_product ty hdef hrank w3 hw3 x w2.nextVar a0 a1 r0 r1
    (by
      intro d hd
      simp only [List.mem_cons, List.not_mem_nil, or_false] at hd
      rcases hd with rfl | rfl | rfl | rfl
      · exact hg _ (by simp)
      · exact hg _ (by simp)
      · exact hR0
      · exact hR1)
    f _ (hfr3 _ _ _ (hfr2 _ _ _ (hfr1 _ _ _ hx))) hC3 (by unfold SameBounds; rw [hrv0]; exact hb) ha0 (by rw [hrv1]; exact hc1)
    (by rw [hrv1]; exact hfac) i j k hij hik hjk 0 al
  refine ⟨w1, w2, w3, w4, [d0, d1], [r0, r1], hd.symm, hrd.symm, e1, e2, e3, e4, hw4, ?_, ?_⟩
  · obtain ⟨r, hr, -, hiff⟩ := C69_eq ty hdef w4 hw4 w1.nextVar w3.nextVar _ _ _ _ (hfr4 _ _ _ (hfr3 _ _ _ hC2)) hC4 ne
    rw [hr]
    congr 1
    rw [hiff]
    refine ⟨by rw [hpv0, hpv1, hqv0, hqv1, hv0, hrv1], ?_⟩
    intro p hp
    obtain ⟨u, v, rfl⟩ := inBox2_elim hp
    have := matMul_assoc a1.val.min a1.val.extent d1.val.min d1.val.extent f g h u v
    have hd1 : d1.val.min = b1.val.min ∧ d1.val.extent = b1.val.extent := by rw [hv1]; exact ⟨rfl, rfl⟩
    rw [this, hd1.1, hd1.2]
    exact hne _
  · intro u s q hu
    exact hfr4 _ _ _ (hfr3 _ _ _ (hfr2 _ _ _ (hfr1 _ _ _ hu)))

/-- C72: the product with an identity matrix is `equal` to the matrix. -/
theorem C72_identity [NonAssocSemiring V] (ty : Types V) (hdef : TypesOk ty)
    (hrank : List.length ty.defaultShape = 2) (w : World V) (hw : Reachable ty w) (x y : Nat) (a0 a1 b0 b1 : SDim)
    (hg : ∀ d ∈ [a0, a1, b0, b1], Fits d.ty d.val) (f g : Index → V) (hx : Contents w x [a0.val, a1.val] f)
    (hy : Contents w y [b0.val, b1.val] g) (hb : SameBounds b0 a1) (hb' : SameBounds b1 a1)
    (hid : ∀ p q, g [p, q] = if p = q then 1 else 0) (ha0 : 0 < a0.val.extent) (ha1 : 0 < a1.val.extent)
    (hfit : a0.val.extent * a1.val.extent ≤ 9223372036854775807) (i j k : Nat) (hij : i ≠ j) (hik : i ≠ k) (hjk : j ≠ k)
    (al : Nat) (ne : V → V → Bool) (hne : ∀ v, ne v v = false) :
    ∃ w', makeEinSumArray ty (· + ·) [i, j] (matTerm x [a0, a1] y [b0, b1] i j k) 0 al w = .ok w' ∧ Reachable ty w' ∧
      arraysEqual ty ne w.nextVar x w' = .ok true := by
  obtain ⟨w1, d0, d1, e1, hw1, -, -, -, -, hv0, hv1, hC1, hfr1⟩ := C72_product ty hdef hrank w hw x y a0 a1 b0 b1 hg f g hx hy hb
    ha0 (by rw [hb'.2]; exact ha1) (by rw [hb'.2]; exact hfit) i j k hij hik hjk 0 al
  refine ⟨w1, e1, hw1, ?_⟩
  obtain ⟨r, hr, hiff⟩ := C69_equal ty hdef w1 hw1 w.nextVar x _ _ _ _ hC1 (hfr1 _ _ _ hx) ne
  rw [hr]
  congr 1
  rw [hiff]
  refine ⟨by simp [hv0, hv1, hb'.1], by simp [hv0, hv1, hb'.2], ?_⟩
  intro p hp
  obtain ⟨u, v, rfl⟩ := inBox2_elim hp
  have hbx := (inBox2.1 hp).2
  simp only [hv1] at hbx
  rw [hb'.1, hb'.2] at hbx
  have : 0 + matMul a1.val.min a1.val.extent f g [u, v] = f [u, v] := by
    unfold matMul
    rw [zero_add, Finset.sum_eq_single v]
    · simp [hid]
    · intro z _ hz
      simp [hid, hz]
    · intro hv
      exact absurd (Finset.mem_Ico.2 hbx) hv
  rw [this]
  exact hne _

end Nda
