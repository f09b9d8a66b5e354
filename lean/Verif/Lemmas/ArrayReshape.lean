import Verif.Lemmas.ArrayMoves
/-
The effect of `swap` and `reshape`.
-/
namespace Nda
open Spec

variable {V : Type} [Hollow V]

/-! ### Intersections -/

theorem mbox_zero {P : Type} [AddCommGroup P] {l : List (Nat × P)} (h : ∃ d ∈ l, d.1 = 0) : mbox l = 0 := by
  induction l with
  | nil => simp at h
  | cons d l ih =>
    obtain ⟨n, s⟩ := d
    rw [mbox_cons]
    by_cases hn : n = 0
    · subst hn; simp
    · rw [ih]
      · simp
      · obtain ⟨e, he, h0⟩ := h
        rcases List.mem_cons.1 he with rfl | he
        · exact absurd h0 hn
        · exact ⟨e, he, h0⟩

theorem fuseCopy_nonpos (l : List CopyDims) (hs : ∀ d ∈ l, 0 ≤ d.src.extent)
    (h : ∃ d ∈ l, d.dst.extent ≤ 0) : ∃ d ∈ fuseLoop canFuseCopy fuseCopy l, d.dst.extent ≤ 0 := by
  induction hn : l.length generalizing l with
  | zero => cases l with
    | nil => simp at h
    | cons => simp at hn
  | succ n ih =>
    match l with
    | [] => simp at hn
    | [d] => rw [fuseLoop]; exact h
    | d0 :: d1 :: ds =>
      rw [fuseLoop]
      have h0 := hs d0 (by simp)
      have h1 := hs d1 (by simp)
      obtain ⟨e, he, hle⟩ := h
      split
      · rename_i hc
        simp only [canFuseCopy, Bool.and_eq_true, beq_iff_eq, canFuse_iff] at hc
        have hce := hc.1.1
        apply ih (fuseCopy d0 d1 :: ds)
        · intro d hd
          rcases List.mem_cons.1 hd with rfl | hd
          · exact mul_nonneg h0 h1
          · exact hs d (by simp [hd])
        · rcases List.mem_cons.1 he with rfl | he
          · refine ⟨_, List.mem_cons_self, ?_⟩
            show e.dst.extent * d1.dst.extent ≤ 0
            have : e.dst.extent = 0 := by omega
            rw [this]; simp
          · rcases List.mem_cons.1 he with rfl | he
            · refine ⟨_, List.mem_cons_self, ?_⟩
              show d0.dst.extent * e.dst.extent ≤ 0
              exact mul_nonpos_of_nonneg_of_nonpos (by omega) hle
            · exact ⟨e, by simp [he], hle⟩
        · simpa using hn
      · rcases List.mem_cons.1 he with rfl | he
        · exact ⟨e, by simp, hle⟩
        · obtain ⟨d, hd, hd'⟩ := ih (d1 :: ds) (fun d hd => hs d (by simp at hd ⊢; tauto)) ⟨e, he, hle⟩
            (by simpa using hn)
          exact ⟨d, by simp [hd], hd'⟩

/-- If some extent is not positive the two-array loop does nothing, whatever the other extents are. -/
theorem copyForEachValue_nil {src dst : Shape} (hl : List.length src = List.length dst) (hs : NonNeg src)
    (hd : ¬ Pos dst) (a b : Int) : copyForEachValue src (some a) dst (some b) = [] := by
  have hex : ∃ d ∈ List.zipWith CopyDims.mk src dst, d.dst.extent ≤ 0 := by
    unfold Pos at hd
    push Not at hd
    obtain ⟨e, he, hle⟩ := hd
    rw [← zipWith_dst hl, List.mem_map] at he
    obtain ⟨d, hd, rfl⟩ := he
    exact ⟨d, hd, hle⟩
  have hsrc : ∀ d ∈ List.zipWith CopyDims.mk src dst, 0 ≤ d.src.extent := by
    intro d hd
    have hm := List.mem_map_of_mem (f := CopyDims.src) hd
    rw [zipWith_src hl] at hm
    exact hs _ hm
  have key : ∀ l : List CopyDims, optimizeCopyShapes src dst = (l.map CopyDims.src, l.map CopyDims.dst) →
      (∃ d ∈ l, d.dst.extent ≤ 0) → copyForEachValue src (some a) dst (some b) = [] := by
    intro l h1 ⟨d, hd, hle⟩
    unfold copyForEachValue
    simp only [h1]
    rw [← Multiset.coe_eq_zero, forEachValueInOrder2_multiset, mbox_zero]
    · simp
    · exact ⟨ces d, List.mem_map_of_mem hd, by simp [ces]; exact hle⟩
  have dyn : ∃ l : List CopyDims, dynamicOptimizeCopyShapes src dst = (l.map CopyDims.src, l.map CopyDims.dst) ∧
      ∃ d ∈ l, d.dst.extent ≤ 0 := by
    refine ⟨_, rfl, ?_⟩
    have hp := bubbleSort_perm copyDimsLt (List.zipWith CopyDims.mk src dst)
    obtain ⟨d, hd, hle⟩ := fuseCopy_nonpos (bubbleSort copyDimsLt (List.zipWith CopyDims.mk src dst))
      (fun d hd => hsrc d (hp.mem_iff.1 hd)) (by
        obtain ⟨d, hd, hle⟩ := hex
        exact ⟨d, hp.mem_iff.2 hd, hle⟩)
    exact ⟨d, by unfold padTo; simp [hd], hle⟩
  match src, dst, hl with
  | [s], [d], _ =>
    apply key [⟨s, d⟩] rfl
    simpa using hex
  | [], [], _ => simp at hex
  | s :: s' :: ss, d :: d' :: ds, _ =>
    obtain ⟨l, h1, h2⟩ := dyn
    exact key l h1 h2

theorem boxList_nil {s : Shape} (h : ¬ Pos s) : boxList s = [] := by
  rw [List.eq_nil_iff_forall_not_mem]
  intro i hi
  exact h (pos_of_inBox (mem_boxList.1 hi))

theorem copyForEachValue_perm' {src dst : Shape} (hl : List.length src = List.length dst) (hs : NonNeg src)
    (a b : Int) :
    (copyForEachValue src (some a) dst (some b)).Perm
      ((boxList dst).map fun i => (a + offsetOf src i, b + offsetOf dst i)) := by
  by_cases hd : Pos dst
  · exact copyForEachValue_perm hl (fun d h => (hd d h).le) a b
  · rw [copyForEachValue_nil hl hs hd, boxList_nil hd]
    exact List.Perm.refl _

theorem clamp_length {s t : Shape} (hl : List.length s = List.length t) :
    List.length (Shape.clamp s t) = List.length s := by
  unfold Shape.clamp
  rw [List.length_zipWith, hl, min_self]

theorem inBox_clamp {s t : Shape} (hl : List.length s = List.length t) {i : Index} :
    InBox (Shape.clamp s t) i ↔ InBox s i ∧ InBox t i := by
  induction s generalizing t i with
  | nil =>
    cases t with
    | nil => simp [Shape.clamp]
    | cons => simp at hl
  | cons d s ih =>
    cases t with
    | nil => simp at hl
    | cons e t =>
      have ih := fun i => ih (t := t) (i := i) (by simpa using hl)
      cases i with
      | nil => simp [Shape.clamp, InBox]
      | cons x i =>
        have h1 : InBox (Shape.clamp (d :: s) (e :: t)) (x :: i) ↔
          ((SDim.clampVal d e).min ≤ x ∧ x < (SDim.clampVal d e).min + (SDim.clampVal d e).extent) ∧
            InBox (Shape.clamp s t) i := Iff.rfl
        rw [h1, ih]
        have h2 : ((SDim.clampVal d e).min ≤ x ∧ x < (SDim.clampVal d e).min + (SDim.clampVal d e).extent) ↔
            (d.min ≤ x ∧ x < d.min + d.extent) ∧ (e.min ≤ x ∧ x < e.min + e.extent) := by
          simp only [SDim.clampVal, imax, imin, Dim.max]
          split_ifs <;> omega
        rw [h2]
        simp only [InBox]
        tauto

/-- The destination pointer of `reshape` addresses the elements of the new array. -/
theorem offset_clamp {s t : Shape} (hl : List.length s = List.length t) {i : Index}
    (hi : List.length i = List.length s) :
    offsetOf s (Shape.mins (Shape.clamp s t)) + offsetOf (Shape.clamp s t) i = offsetOf s i := by
  induction s generalizing t i with
  | nil => simp [Shape.clamp, offsetOf]
  | cons d s ih =>
    cases t with
    | nil => simp at hl
    | cons e t =>
      cases i with
      | nil => simp at hi
      | cons x i =>
        have := ih (t := t) (i := i) (by simpa using hl) (by simpa using hi)
        simp only [Shape.mins, Shape.clamp, List.zipWith_cons_cons, List.map_cons, offsetOf] at this ⊢
        rw [← this]
        simp only [SDim.clampVal]
        ring

/-! ### `swap` -/

/-- Removing a local variable. -/
theorem Step.trim {T : Nat → Prop} {w w' : World V} {n : Nat}
    (h : Step (fun z => T z ∨ z = n) w w') (h1 : w.vars n = none) (h2 : w'.vars n = none) : Step T w w' := by
  constructor
  · intro y hy
    by_cases hn : y = n
    · subst hn; rw [h1, h2]
    · exact h.vars y (by tauto)
  · intro y a c hy ha hc
    refine h.heap y a c ?_ ha hc
    rintro (ht | rfl)
    · exact hy ht
    · rw [h1] at ha; simp at ha

theorem Step.four {x y n : Nat} {w w1 w2 w3 w4 : World V} (h1 : Step (fun z => z = n ∨ z = y) w w1)
    (h2 : Step (fun z => z = y ∨ z = x) w1 w2) (h3 : Step (fun z => z = x ∨ z = n) w2 w3)
    (h4 : Step (· = n) w3 w4) : Step (fun z => (z = x ∨ z = y) ∨ z = n) w w4 := by
  refine ((h1.mono ?_).trans (h2.mono ?_)).trans ((h3.mono ?_).trans (h4.mono ?_)) <;>
    intro z hz <;> tauto

theorem Good.known {ty : Types V} {w : World V} {a : Arr} (h : Good ty w a) (hb : a.base ≠ none) :
    ∀ d ∈ a.shape, Known d := by
  obtain ⟨b, blk, hh, _⟩ := h.full hb
  exact hh.known

theorem swap_ok {ty : Types V} {w : World V} {x y : Nat} {a o : Arr} (hI : Inv ty w)
    (hdef : TypesOk ty) (ha : w.vars x = some a) (ho : w.vars y = some o)
    (hsa : SrcOk ty a) (hso : SrcOk ty o) (hself : x = y → ty.debug = true → ¬ Pos ty.defaultShape) :
    ∃ w' a' o', swap ty x y w = .ok w' ∧ Inv ty w' ∧ Step (fun z => z = x ∨ z = y) w w' ∧
      w.nextVar ≤ w'.nextVar ∧ Received false ty w w' x y o a' ∧ Received false ty w w' y x a o' ∧
      (ty.propagateSwap = true → a' = { o with alloc := ⟨o.alloc.arena, x, false⟩ } ∧
        o' = { a with alloc := ⟨a.alloc.arena, y, false⟩ } ∧ w'.heap = w.heap ∧ w'.calls = w.calls) := by
  have hg := hI.good x a ha
  have hog := hI.good y o ho
  unfold swap
  by_cases hp : ty.propagateSwap = true
  · rw [if_pos hp]
    have pa := hI.plain hdef (Or.inr hp) ha
    have po := hI.plain hdef (Or.inr hp) ho
    by_cases hxy : x = y
    · subst hxy
      rw [ha] at ho
      simp only [Option.some.injEq] at ho
      subst ho
      have e1 : swapAllocator x x w = .ok w := by
        unfold swapAllocator
        rw [get_ok ha, bind_ok, bind_ok]
        simp only [setVar_eq_self ha]
      have e2 : swapExceptAllocator x x w = .ok w := by
        rw [swapExceptAllocator_ok ha ha]
        simp only [setVar_eq_self ha]
      have ea : a = { a with alloc := ⟨a.alloc.arena, x, false⟩ } := by
        have : a.alloc = ⟨a.alloc.arena, x, false⟩ := by rw [← pa, ← hI.self x a ha]
        rw [← this]
      refine ⟨w, a, a, by rw [e1, bind_ok, e2], hI, Step.refl _ _, le_rfl,
        ⟨ha, Or.inl rfl, id, fun _ _ _ => rfl⟩, ⟨ha, Or.inl rfl, id, fun _ _ _ => rfl⟩,
        fun _ => ⟨ea, ea, rfl, rfl⟩⟩
    · obtain ⟨w', e, hv, hh, hnb, hnv, hca⟩ := swapBoth_ok hxy ha ho
      rw [pa, po, hI.self x a ha, hI.self y o ho] at hv
      have hvx : w'.vars x = some { o with alloc := ⟨o.alloc.arena, x, false⟩ } := by
        rw [hv, if_neg hxy, if_pos rfl]
      have hvy : w'.vars y = some { a with alloc := ⟨a.alloc.arena, y, false⟩ } := by rw [hv, if_pos rfl]
      refine ⟨w', _, _, e, hI.exchange hxy ha ho (al1 := ⟨o.alloc.arena, x, false⟩)
        (al2 := ⟨a.alloc.arena, y, false⟩) ⟨rfl, rfl, po, fun _ => rfl⟩ ⟨rfl, rfl, pa, fun _ => rfl⟩ hv hh hnb hnv, ⟨?_, ?_⟩, hnv.ge, ⟨hvx, Or.inl rfl, id, ?_⟩, ⟨hvy, Or.inl rfl, id, ?_⟩,
        fun _ => ⟨rfl, rfl, hh, hca⟩⟩
      · intro z hz
        rw [not_or] at hz
        rw [hv, if_neg hz.2, if_neg hz.1]
      · intro _ _ _ _ _ _; rw [hh]
      · intro _ i _; exact elem_congr hvx ho rfl rfl hh i
      · intro _ i _; exact elem_congr hvy ha rfl rfl hh i
  · rw [if_neg hp]
    dsimp only
    have hn := hI.lt ha
    have hny := hI.lt ho
    obtain ⟨w1, an, o1, e1, hI1, hst1, hnv1, hal1, hy1, hr1, htake1, hkeep1⟩ :=
      newMove_ok hI hdef ho (fun _ => hso)
    rw [e1, bind_ok]
    -- the state of `y` after the first step
    have ho1 : o1.base = none ∧ o1.shape = ty.defaultShape ∨ o1 = o := by
      by_cases ht : TakesNew ty o
      · left; rw [(htake1 ht).2.1]; exact ⟨rfl, rfl⟩
      · right; exact (hkeep1 ht).1
    -- the state of `x` after the first step
    have hx1 : ∃ a1, w1.vars x = some a1 ∧ (x ≠ y → a1 = a) ∧ (x = y → a1 = o1) := by
      by_cases hxy : x = y
      · exact ⟨o1, by rw [hxy]; exact hy1, fun h => absurd hxy h, fun _ => rfl⟩
      · refine ⟨a, ?_, fun _ => rfl, fun h => absurd h hxy⟩
        rw [hst1.vars x (by rintro (h | h); omega; exact hxy h)]; exact ha
    obtain ⟨a1, hax1, hane, haeq⟩ := hx1
    have hpre2 : MoveOk ty o1 a1 := by
      by_cases hxy : x = y
      · rw [haeq hxy]
        refine ⟨?_, fun h => absurd rfl h⟩
        intro hb _ hd
        rcases ho1 with ⟨_, h⟩ | h
        · rw [h]; exact hself hxy hd
        · rw [h] at hb ⊢; exact (hso hb).1
      · rw [hane hxy]; exact MoveOk.of_src hsa
    obtain ⟨w2, o2, a2, e2, hI2, hst2, hnv2, hx2, hr2, htake2, hnull2, hkeep2⟩ :=
      moveAssignOp_ok hI1 hdef hy1 hax1 hpre2
    rw [e2, bind_ok]
    have hnn : w.nextVar ≠ y ∧ w.nextVar ≠ x := by omega
    have hn2 : w2.vars w.nextVar = some an := by
      rw [hst2.vars _ (by rintro (h | h); exact hnn.1 h; exact hnn.2 h)]; exact hr1.var
    obtain ⟨w3, a3, n3, e3, hI3, hst3, hnv3, hn3, hr3, _, _, _⟩ :=
      moveAssignOp_ok hI2 hdef hx2 hn2 (MoveOk.of_src (hr1.src hso))
    rw [e3, bind_ok]
    obtain ⟨w4, e4, hI4, hst4, hv4, hnv4⟩ := delete_ok hI3 hn3
    have helem_n : ∀ i, elem w2 w.nextVar i = elem w1 w.nextVar i := fun i =>
      hst2.elem hI1 (by rintro (h | h); exact hnn.1 h; exact hnn.2 h) i
    have hrx3 : Received false ty w w3 x y o a3 :=
      hr1.trans hr3 helem_n hso (fun hb => hog.known hb)
    have hrx : Received false ty w w4 x y o a3 := by
      refine ⟨by rw [hst4.vars x (Ne.symm hnn.2)]; exact hrx3.var, hrx3.shape, hrx3.src, ?_⟩
      intro hk i hi
      rw [hst4.elem hI3 (Ne.symm hnn.2) i]; exact hrx3.vals hk i hi
    have hstep : Step (fun z => z = x ∨ z = y) w w4 := by
      exact Step.trim (n := w.nextVar) (Step.four hst1 hst2 hst3 hst4) (hI.freshVar _ le_rfl) hv4
    by_cases hxy : x = y
    · subst hxy
      rw [ha] at ho
      simp only [Option.some.injEq] at ho
      subst ho
      exact ⟨w4, a3, a3, e4, hI4, hstep, by omega, hrx, hrx, fun h => absurd h hp⟩
    · have ea := hane hxy
      subst ea
      have hyx : ¬ (y = x ∨ y = w.nextVar) := by rintro (h | h); exact hxy h.symm; exact hnn.1 h.symm
      have hry : Received false ty w w4 y x a1 o2 := by
        refine ⟨?_, hr2.shape, hr2.src, ?_⟩
        · rw [hst4.vars y (Ne.symm hnn.1), hst3.vars y hyx]; exact hr2.var
        · intro hk i hi
          rw [hst4.elem hI3 (Ne.symm hnn.1) i, hst3.elem hI2 hyx i, hr2.vals hk i hi]
          exact hst1.elem hI (by rintro (h | h); omega; exact hxy h) i
      exact ⟨w4, a3, o2, e4, hI4, hstep, by omega, hrx, hry, fun h => absurd h hp⟩

/-! ### `reshape` -/

/-- The move of the common elements. -/
theorem reshape_move {ty : Types V} {w : World V} {x n : Nat} {a an : Arr} {s : Shape} (hI : Inv ty w)
    (hxn : x ≠ n) (ha : w.vars x = some a) (hn : w.vars n = some an) (hsh : an.shape = s)
    (hnull : (a.base = none ∨ an.base = none) → ty.debug = true → (Shape.clamp s a.shape).empty = true)
    (hnh : NotHollow a) (hnn : NotHollow an) :
    ∃ w', forEachPair ty a.shape a.base (Shape.clamp s a.shape)
        (an.base.map fun p => (p.1, p.2 + s.flatOffset (Shape.clamp s a.shape).mins))
        (moveAssignAt ty) w = .ok w' ∧ Inv ty w' ∧ Step (fun z => z = x ∨ z = n) w w' ∧
      w'.vars = w.vars ∧ w'.nextVar = w.nextVar ∧
      (Injective a.shape → Injective s → ∀ i, InBox s i → InBox a.shape i → elem w' n i = elem w x i) ∧
      (Injective s → ∀ i, InBox s i → ¬ InBox a.shape i → elem w' n i = elem w n i) := by
  subst hsh
  have hg := hI.good x a ha
  have hgn := hI.good n an hn
  have hlen : List.length an.shape = List.length a.shape := hgn.shape.rank.trans hg.shape.rank.symm
  by_cases hb : a.base = none ∨ an.base = none
  · refine ⟨w, forEachPair_null ty _ (by
      rcases hb with h | h
      · exact Or.inl h
      · right; rw [h]; rfl) (by rw [clamp_length hlen]; exact hlen.symm) (hnull hb), hI, Step.refl _ _, rfl, rfl,
      ?_, fun _ _ _ _ => rfl⟩
    intro _ _ i h1 h2
    rcases hb with h | h
    · exact absurd (pos_of_inBox h2) (hnh h)
    · exact absurd (pos_of_inBox h1) (hnn h)
  · rw [not_or] at hb
    obtain ⟨b, blk, hh, hl⟩ := hg.full hb.1
    obtain ⟨c, nblk, hhn, hln⟩ := hgn.full hb.2
    have hbc : b ≠ c := by
      rintro rfl
      exact hxn (hI.disj x n a an b 0 0 ha hn hh.buffer hhn.buffer)
    have hperm := copyForEachValue_perm' (src := a.shape) (dst := Shape.clamp an.shape a.shape)
      (by rw [clamp_length hlen]; exact hlen.symm) hg.shape.nonNeg (0 - a.shape.flatMin)
      (0 - an.shape.flatMin + an.shape.flatOffset (Shape.clamp an.shape a.shape).mins)
    have hmap : ((boxList (Shape.clamp an.shape a.shape)).map fun i =>
        (0 - a.shape.flatMin + offsetOf a.shape i,
          0 - an.shape.flatMin + an.shape.flatOffset (Shape.clamp an.shape a.shape).mins +
            offsetOf (Shape.clamp an.shape a.shape) i)) =
        (boxList (Shape.clamp an.shape a.shape)).map fun i =>
        (0 - a.shape.flatMin + offsetOf a.shape i, 0 - an.shape.flatMin + offsetOf an.shape i) := by
      apply List.map_congr_left
      intro i hi
      have hi := ((inBox_clamp hlen).1 (mem_boxList.1 hi)).1
      rw [flatOffset_eq, add_assoc, offset_clamp hlen (inBox_length hi)]
    rw [hmap] at hperm
    have hmem : ∀ p, p ∈ copyForEachValue a.shape (some (0 - a.shape.flatMin))
        (Shape.clamp an.shape a.shape)
        (some (0 - an.shape.flatMin + an.shape.flatOffset (Shape.clamp an.shape a.shape).mins)) ↔
        ∃ i, (InBox an.shape i ∧ InBox a.shape i) ∧
          (0 - a.shape.flatMin + offsetOf a.shape i, 0 - an.shape.flatMin + offsetOf an.shape i) = p := by
      intro p
      rw [hperm.mem_iff, List.mem_map]
      simp only [mem_boxList, inBox_clamp hlen]
    obtain ⟨w', vs, vd, e, st, _, h1, h2, v1, v2, v3⟩ := moveAssign_loop ty hbc
      (copyForEachValue a.shape (some (0 - a.shape.flatMin)) (Shape.clamp an.shape a.shape)
        (some (0 - an.shape.flatMin + an.shape.flatOffset (Shape.clamp an.shape a.shape).mins)))
      w blk nblk hh.heap hhn.heap (by
        intro p hp
        obtain ⟨i, hi, rfl⟩ := (hmem p).1 hp
        rw [hh.size]; exact elem_range hi.2) (by
        intro p hp
        obtain ⟨i, hi, rfl⟩ := (hmem p).1 hp
        rw [hl, cnt_pos_iff]; exact ⟨i, hi.2, rfl⟩) (by
        intro p hp
        obtain ⟨i, hi, rfl⟩ := (hmem p).1 hp
        rw [hhn.size]; exact elem_range hi.1) (by
        intro p hp
        obtain ⟨i, hi, rfl⟩ := (hmem p).1 hp
        rw [hln, cnt_pos_iff]; exact ⟨i, hi.1, rfl⟩)
    have hvn : w'.vars n = some an := by rw [st.vars]; exact hn
    refine ⟨w', ?_, ?_, ⟨fun z _ => by rw [st.vars], ?_⟩, st.vars, st.nextVar, ?_, ?_⟩
    · unfold forEachPair
      rw [hh.base, hhn.base]
      exact e
    · apply hI.of_skel st.vars st.nextVar st.nextBlock
      intro k
      by_cases hkb : k = b
      · subst hkb; rw [skel_some h1, skel_some hh.heap]
      · by_cases hkc : k = c
        · subst hkc; rw [skel_some h2, skel_some hhn.heap]
        · exact st.skel (by rintro (h | h); exact hkb h; exact hkc h)
    · intro z a2 k hz ha2 hk
      rw [not_or] at hz
      apply st.heap
      rintro (rfl | rfl)
      · exact hz.1 (hI.disj z x a2 a k 0 0 ha2 ha hk hh.buffer)
      · exact hz.2 (hI.disj z n a2 an k 0 0 ha2 hn hk hhn.buffer)
    · intro hi1 hi2 i hs ha'
      rw [elem_holds hvn hhn.base h2 hhn.size hln hs, elem_holds ha hh.base hh.heap hh.size hl ha']
      dsimp only
      have hnd1 : ((copyForEachValue a.shape (some (0 - a.shape.flatMin)) (Shape.clamp an.shape a.shape)
        (some (0 - an.shape.flatMin + an.shape.flatOffset (Shape.clamp an.shape a.shape).mins))).map
          Prod.fst).Nodup := by
        rw [(hperm.map Prod.fst).nodup_iff, List.map_map]
        apply (boxList_nodup _).map_on
        intro i hi j hj e
        simp only [Function.comp] at e
        exact hi1 i j ((inBox_clamp hlen).1 (mem_boxList.1 hi)).2 ((inBox_clamp hlen).1 (mem_boxList.1 hj)).2
          (by omega)
      have hnd2 : ((copyForEachValue a.shape (some (0 - a.shape.flatMin)) (Shape.clamp an.shape a.shape)
        (some (0 - an.shape.flatMin + an.shape.flatOffset (Shape.clamp an.shape a.shape).mins))).map
          Prod.snd).Nodup := by
        rw [(hperm.map Prod.snd).nodup_iff, List.map_map]
        apply (boxList_nodup _).map_on
        intro i hi j hj e
        simp only [Function.comp] at e
        exact hi2 i j ((inBox_clamp hlen).1 (mem_boxList.1 hi)).1 ((inBox_clamp hlen).1 (mem_boxList.1 hj)).1
          (by omega)
      have := (v1 hnd1 hnd2 _ ((hmem _).2 ⟨i, ⟨hs, ha'⟩, rfl⟩)).1
      simp only at this
      rw [this]
    · intro hi2 i hs ha'
      rw [elem_holds hvn hhn.base h2 hhn.size hln hs, elem_holds hn hhn.base hhn.heap hhn.size hln hs]
      dsimp only
      rw [v3]
      intro hm
      obtain ⟨p, hp, e⟩ := List.mem_map.1 hm
      obtain ⟨j, hj, rfl⟩ := (hmem p).1 hp
      simp only at e
      have := hi2 j i hj.1 hs (by omega)
      subst this
      exact ha' hj.2

theorem reshape_ok {ty : Types V} {w : World V} {x : Nat} {a : Arr} {s : Shape} (hI : Inv ty w)
    (hdef : TypesOk ty) (ha : w.vars x = some a) (hnh : NotHollow a) (hs : ShapeOk ty s)
    (hpre : ReshapeOk ty a s) :
    ∃ w' a', reshape ty x s w = .ok w' ∧ Inv ty w' ∧ Step (· = x) w w' ∧ w.nextVar ≤ w'.nextVar ∧
      w'.vars x = some a' ∧ a'.shape = s.resolve ∧ NotHollow a' ∧
      (Injective a.shape → Injective s.resolve → ∀ i, InBox s.resolve i →
        (InBox a.shape i → elem w' x i = elem w x i) ∧
        (¬ InBox a.shape i → elem w' x i = .ok ty.defaultValue)) := by
  have hres : s.resolve.resolve = s.resolve := resolve_of_known (resolve_known s)
  unfold reshape
  rw [get_ok ha, bind_ok]
  dsimp only
  by_cases hsame : a.shape = s.resolve
  · rw [if_pos hsame]
    refine ⟨w, a, rfl, hI, Step.refl _ _, le_rfl, ha, hsame, hnh, ?_⟩
    intro _ _ i hi
    exact ⟨fun _ => rfl, fun h => absurd (by rwa [hsame]) h⟩
  · rw [if_neg hsame]
    obtain ⟨w1, an, e1, hI1, hst1, hnv1, hv1, hsh1, hal1, hh1, hval1⟩ :=
      newShapeAlloc_ok hI hs.resolve ty.defaultAlloc
    rw [hres] at hsh1
    have hx := hI.lt ha
    have hxn : x ≠ w.nextVar := by omega
    have ha1 : w1.vars x = some a := by rw [hst1.vars x hxn]; exact ha
    unfold newShape
    rw [e1, bind_ok, get_ok hv1, bind_ok, get_ok ha1, bind_ok]
    obtain ⟨w2, e2, hI2, hst2, hv2, hnv2, hval2, hval2'⟩ := reshape_move (s := s.resolve) hI1 hxn ha1 hv1 hsh1
      (by
        intro hb hd
        apply hpre _ hd
        rcases hb with hb | hb
        · exact Or.inl hb
        · right
          have := hh1 hb
          rw [hsh1, resolve_pos] at this
          exact this) hnh hh1
    rw [e2, bind_ok]
    have hsrc : SrcOk ty an := fun hb => ⟨hh1 hb, fun _ => by rw [hsh1]; exact resolve_known s⟩
    obtain ⟨w3, a3, n3, e3, hI3, hst3, hnv3, hn3, hr3, htake3, _, _⟩ :=
      moveAssignOp_ok hI2 hdef (by rw [hv2]; exact ha1) (by rw [hv2]; exact hv1) (MoveOk.of_src hsrc)
    rw [e3, bind_ok]
    obtain ⟨w4, e4, hI4, hst4, hv4, hnv4⟩ := delete_ok hI3 hn3
    have hsh3 : a3.shape = s.resolve := by
      rcases hr3.shape with h | ⟨_, h⟩
      · rw [h, hsh1]
      · rw [h, hsh1, hres]
    refine ⟨w4, a3, e4, hI4, ?_, by omega, by rw [hst4.vars x hxn]; exact hr3.var, hsh3,
      fun hb => (hr3.src hsrc hb).1, ?_⟩
    · refine (Step.trim (T := fun z => z = x ∨ z = x) (n := w.nextVar) ?_ (hI.freshVar _ le_rfl) hv4).mono
        (by simp)
      exact Step.four (hst1.mono fun z hz => Or.inl hz) (Step.refl _ w1)
        (hst2.trans hst3) hst4
    · intro hi1 hi2 i hi
      rw [hst4.elem hI3 hxn i, hr3.vals (Or.inr (by rw [hsh1]; exact hi2)) i (by rw [hsh3]; exact hi)]
      constructor
      · intro h
        rw [hval2 hi1 hi2 i hi h, hst1.elem hI hxn i]
      · intro h
        rw [hval2' hi2 i hi h, hval1 i (by rw [hsh1]; exact hi)]

end Nda
