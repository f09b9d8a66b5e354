import Verif.Spec.Compiles
import Verif.Lemmas.Static
import Verif.Lemmas.Unshuffle
import Verif.Props.Static
import Verif.Props.Interval
/-
C83: which calls compile, and the types of views.
-/
namespace Nda
open Spec

/-! ### Overloads -/

theorem notEqual_dynamic_left (b : Int) : notEqual dynamic b = false := by simp [notEqual, isStatic]

theorem canConvert_interval_any (t : IntervalT) : IntervalT.canConvert ⟨dynamic, dynamic⟩ t = true := by
  simp [IntervalT.canConvert, notEqual_dynamic_left]

theorem canConvert_dim_any (t : DimT) : DimT.canConvert DimT.any t = true := by
  simp [DimT.canConvert, DimT.any, notEqual_dynamic_left]

theorem isConstructible_index_iff (a : ArgT) : isConstructible .index a = true ↔ IsNumber a := by
  cases a <;> simp [isConstructible, IsNumber]

theorem allOfAnyType_iff (ts : List ArgTarget) (args : List ArgT) :
    allOfAnyType ts args = true ↔ ∀ a ∈ args, ∃ t ∈ ts, isConstructible t a = true := by
  induction args with
  | nil => simp [allOfAnyType]
  | cons a args ih =>
    simp only [allOfAnyType, Bool.and_eq_true, any_iff, ih, List.mem_map, List.mem_cons, forall_eq_or_imp]
    constructor
    · rintro ⟨⟨b, ⟨t, ht, rfl⟩, hb⟩, h⟩
      exact ⟨⟨t, ht, hb⟩, h⟩
    · rintro ⟨⟨t, ht, hb⟩, h⟩
      exact ⟨⟨_, ⟨t, ht, rfl⟩, hb⟩, h⟩

theorem allOfType_index_iff (args : List ArgT) : allOfType .index args = true ↔ ∀ a ∈ args, IsNumber a := by
  rw [allOfType, allOfAnyType_iff]
  simp [isConstructible_index_iff]

theorem allOfAnyType_ranges_iff (args : List ArgT) :
    allOfAnyType [.interval, .dim] args = true ↔ ∀ a ∈ args, IsIndexOrRange a := by
  rw [allOfAnyType_iff]
  refine forall₂_congr fun a _ => ?_
  cases a <;> simp [isConstructible, IsIndexOrRange, canConvert_interval_any, canConvert_dim_any]

theorem enableIfAllIndices_iff (rank : Nat) (args : List ArgT) :
    enableIfAllIndices rank args = true ↔ IsElementCall rank args := by
  simp [enableIfAllIndices, IsElementCall, allOfType_index_iff]

theorem enableIfAnySlices_iff (rank : Nat) (args : List ArgT) :
    enableIfAnySlices rank args = true ↔ IsViewCall rank args := by
  unfold enableIfAnySlices IsViewCall
  rw [Bool.and_eq_true, Bool.and_eq_true, beq_iff_eq, allOfAnyType_ranges_iff, and_assoc, Bool.not_eq_true',
    ← Bool.not_eq_true, allOfType_index_iff]
  push Not
  rfl

theorem not_both {rank : Nat} {args : List ArgT} (h : IsElementCall rank args) : ¬ IsViewCall rank args :=
  fun ⟨_, _, a, ha, hn⟩ => hn (h.2 a ha)

/-- C83: `s(args...)` and `s[std::make_tuple(args...)]`, for shapes, arrays and `array_ref`s of rank `rank`: if there is
one number for each dim, it is an element; if there is one number, interval or dim for each dim, not all of them
numbers, it is a view; otherwise the call does not compile. No call is ambiguous. -/
theorem C83_overloads (rank : Nat) (args : List ArgT) :
    (callOverloads rank args = [.element] ↔ IsElementCall rank args) ∧
    (callOverloads rank args = [.view] ↔ IsViewCall rank args) ∧
    (callOverloads rank args = [] ↔ ¬ IsElementCall rank args ∧ ¬ IsViewCall rank args) ∧
    (callOverloads rank args).length ≤ 1 ∧
    subscriptOverloads rank args = callOverloads rank args := by
  have hs : (args.length == rank && args.all (isConstructible .index)) = enableIfAllIndices rank args := by
    rw [Bool.eq_iff_iff, enableIfAllIndices_iff]
    simp [IsElementCall, isConstructible_index_iff]
  unfold subscriptOverloads
  rw [hs]
  unfold callOverloads
  have h1 := enableIfAllIndices_iff rank args
  have h2 := enableIfAnySlices_iff rank args
  by_cases he : IsElementCall rank args
  · have hv := not_both he
    rw [if_pos (h1.2 he), if_neg (fun h => hv (h2.1 h))]
    simp [he, hv]
  · rw [if_neg (fun h => he (h1.1 h))]
    by_cases hv : IsViewCall rank args
    · rw [if_pos (h2.2 hv)]
      simp [he, hv]
    · rw [if_neg (fun h => hv (h2.1 h))]
      simp [he, hv]

/-- C83: `is_in_range(args...)` compiles for exactly the calls that give elements or views. -/
theorem C83_is_in_range (rank : Nat) (args : List ArgT) :
    enableIfAnySlicesOrIndices rank args = true ↔ IsElementCall rank args ∨ IsViewCall rank args := by
  unfold enableIfAnySlicesOrIndices
  rw [Bool.and_eq_true, beq_iff_eq, allOfAnyType_ranges_iff]
  constructor
  · rintro ⟨hl, h⟩
    by_cases hn : ∀ a ∈ args, IsNumber a
    · exact .inl ⟨hl, hn⟩
    · push Not at hn
      exact .inr ⟨hl, h, hn⟩
  · rintro (⟨hl, h⟩ | ⟨hl, h, -⟩)
    · exact ⟨hl, fun a ha => by rw [h a ha]; exact fun h => ArgT.noConfusion h⟩
    · exact ⟨hl, h⟩

/-- test/errors.cpp:63-65, 115-117, 129-131: too many and too few indices. -/
example : callOverloads 2 [.number, .number, .number] = [] ∧ callOverloads 2 [.number] = [] ∧
    callOverloads 3 [.number, .number, .number, .number] = [] ∧ callOverloads 3 [.number, .number] = [] := by decide

/-- Elements, views, and the element of an array of rank 0. -/
example : callOverloads 2 [.number, .number] = [.element] ∧
    callOverloads 2 [.number, .interval ⟨0, -1⟩] = [.view] ∧
    callOverloads 2 [.dim ⟨dynamic, dynamic, 4⟩, .interval ⟨dynamic, 8⟩] = [.view] ∧
    callOverloads 1 [.other] = [] ∧ callOverloads 0 [] = [.element] := by decide

/-! ### Conversions -/

theorem notEqual_false_iff (a b : Int) : notEqual a b = false ↔ ∃ v, Describes a v ∧ Describes b v := by
  unfold notEqual isStatic dynamic Describes
  by_cases ha : a = -9
  · simp only [ha]
    exact ⟨fun _ => ⟨b, fun h => absurd rfl h, fun _ => rfl⟩, fun _ => by simp⟩
  · by_cases hb : b = -9
    · simp only [hb]
      exact ⟨fun _ => ⟨a, fun _ => rfl, fun h => absurd rfl h⟩, fun _ => by simp⟩
    · constructor
      · intro h
        have : a = b := by simpa [ha, hb] using h
        exact ⟨a, fun _ => rfl, fun _ => this⟩
      · rintro ⟨v, h1, h2⟩
        have : a = b := (h1 ha).symm.trans (h2 hb)
        simp [this]

/-- C83: a conversion or assignment between types of intervals compiles exactly if there is an interval of the one type
whose conversion to the other does not fail the assertions of debug builds. -/
theorem C83_interval (t u : IntervalT) :
    t.canConvert u = true ↔ ∃ src, FitsInterval u src ∧ t.convertAssert src = true := by
  unfold IntervalT.canConvert
  simp only [Bool.and_eq_true, Bool.not_eq_true', notEqual_false_iff, (C59_construct t _ _).1, IntervalT.convertAssert]
  constructor
  · rintro ⟨⟨m, h1, h2⟩, ⟨e, h3, h4⟩⟩
    exact ⟨⟨m, e⟩, ⟨h2, h4⟩, ⟨h1, h3⟩⟩
  · rintro ⟨src, ⟨h2, h4⟩, ⟨h1, h3⟩⟩
    exact ⟨⟨_, h1, h2⟩, ⟨_, h3, h4⟩⟩

/-- C83: a conversion or assignment between types of dims compiles exactly if there is a dim of the one type, with a
known stride, whose conversion to the other does not fail the assertions of debug builds. -/
theorem C83_dim (t u : DimT) (ht : t.stride ≠ unresolved) (hu : u.stride ≠ unresolved) :
    t.canConvert u = true ↔ ∃ src, Fits u src ∧ src.stride ≠ unresolved ∧ t.convertAssert src = true := by
  have hc : ∀ src : Dim, src.stride ≠ unresolved → (t.convertAssert src = true ↔ Fits t src) := by
    intro src hs
    unfold DimT.convertAssert DimT.makeAssert DimT.setStrideAssert DimT.defaultStride ciAssert isStatic isDynamic
      isUnresolved Fits Describes dynamic
    by_cases h1 : t.min = -9 <;> by_cases h2 : t.extent = -9 <;> by_cases h3 : t.stride = -9 <;>
      simp [h1, h2, h3, hs, and_assoc]
  unfold DimT.canConvert
  simp only [Bool.and_eq_true, Bool.not_eq_true', notEqual_false_iff]
  constructor
  · rintro ⟨⟨⟨m, h1, h2⟩, ⟨e, h3, h4⟩⟩, ⟨s, h5, h6⟩⟩
    by_cases hs : s = unresolved
    · have h7 : t.stride = -9 := by
        by_contra h
        exact ht ((h5 h).symm.trans hs)
      have h8 : u.stride = -9 := by
        by_contra h
        exact hu ((h6 h).symm.trans hs)
      refine ⟨⟨m, e, 1⟩, ⟨h2, h4, fun h => absurd h8 h⟩, (show (1 : Int) ≠ unresolved by decide), ?_⟩
      rw [hc _ (show (1 : Int) ≠ unresolved by decide)]
      exact ⟨h1, h3, fun h => absurd h7 h⟩
    · refine ⟨⟨m, e, s⟩, ⟨h2, h4, h6⟩, hs, ?_⟩
      rw [hc _ hs]
      exact ⟨h1, h3, h5⟩
  · rintro ⟨src, ⟨h2, h4, h6⟩, hs, h⟩
    obtain ⟨h1, h3, h5⟩ := (hc src hs).1 h
    exact ⟨⟨⟨_, h1, h2⟩, ⟨_, h3, h4⟩⟩, ⟨_, h5, h6⟩⟩

/-- test/errors.cpp:28-46. -/
example : IntervalT.canConvert ⟨0, 2⟩ ⟨dynamic, 3⟩ = false ∧ IntervalT.canConvert ⟨dynamic, 3⟩ ⟨0, 2⟩ = false ∧
    DimT.canConvert ⟨dynamic, dynamic, 1⟩ ⟨0, 1, 2⟩ = false := by decide

/-- Conversions that compile, but may fail at run time. -/
example : IntervalT.canConvert ⟨0, 2⟩ ⟨dynamic, dynamic⟩ = true ∧
    DimT.canConvert ⟨0, dynamic, 1⟩ ⟨dynamic, 4, dynamic⟩ = true ∧
    DimT.convertAssert ⟨0, dynamic, 1⟩ ⟨2, 4, 1⟩ = false := by decide

/-! ### Types of views -/

theorem rangeWithStride_sound (a : SArg) (d : SDim) (ha : FitsArg a) (hd : Fits d.ty d.val) :
    (a.rangeWithStride d).val = a.toArg.rangeWithStride d.val ∧ Fits (a.rangeWithStride d).ty (a.rangeWithStride d).val ∧
    a.rangeWithStrideAssert d = true ∧ (a.rangeWithStride d).ty.stride = d.ty.stride := by
  have hfit : ∀ c : SDim, Fits c.ty c.val →
      Fits (SDim.rangeInterval c d).ty (SDim.rangeInterval c d).val := by
    intro c hc
    rw [(C28_crop_types c d 0 hc hd).2.2.2]
    exact ⟨hc.1, hc.2.1, hd.2.2⟩
  cases a with
  | number x =>
    obtain ⟨h1, -, h3, -⟩ := C28_crop_types d d x hd hd
    refine ⟨h3, ?_, h1, rfl⟩
    show Fits _ (SDim.rangeIndex x d).val
    rw [h3]
    exact ⟨describes_dynamic' _, describes_self 1, hd.2.2⟩
  | interval t v =>
    unfold SArg.rangeWithStride SArg.rangeWithStrideAssert SArg.toArg
    by_cases ht : t = SArg.allT
    · simp only [if_pos ht]
      exact ⟨rfl, hd, trivial, trivial⟩
    · simp only [if_neg ht]
      have hc : Fits (⟨t.min, t.extent, dynamic⟩ : DimT) ⟨v.min, v.extent, unresolved⟩ :=
        ⟨ha.1, ha.2, describes_dynamic' _⟩
      obtain ⟨-, h2, -, h4⟩ := C28_crop_types ⟨⟨t.min, t.extent, dynamic⟩, ⟨v.min, v.extent, unresolved⟩⟩ d 0 hc hd
      exact ⟨h4, hfit _ hc, h2, rfl⟩
  | dim c =>
    obtain ⟨-, h2, -, h4⟩ := C28_crop_types c d 0 ha hd
    exact ⟨h4, hfit _ ha, h2, rfl⟩

theorem assertDimCompatible_of_fits {t : DimT} {d : Dim} (h : Fits t d) : t.assertDimCompatible d = true := by
  unfold DimT.assertDimCompatible isStatic dynamic
  obtain ⟨h1, h2, h3⟩ := h
  unfold Describes at h1 h2 h3
  by_cases a1 : t.min = -9 <;> by_cases a2 : t.extent = -9 <;> by_cases a3 : t.stride = -9 <;>
    simp_all

theorem typedView_cons (d : SDim) (dims : List SDim) (a : SArg) (args : List SArg) :
    typedView (d :: dims) (a :: args) = SArg.skipSlices (a.rangeWithStride d) a ++ typedView dims args := rfl

/-- C83: the shape of a view has one dim for each argument that is not a number, with the min and extent of the
argument (of the dim for `_`) and the stride of the dim; its type tells the truth about it, keeps the static strides,
and takes the static min and extent of the argument (of the dim for `_`). No assertion fails. -/
theorem C83_view_type (dims : List SDim) (args : List SArg) (hl : args.length = dims.length)
    (hd : ∀ d ∈ dims, Fits d.ty d.val) (ha : ∀ a ∈ args, FitsArg a) :
    values (typedView dims args) = Shape.crop (values dims) (args.map SArg.toArg) ∧
    (∀ d ∈ typedView dims args, Fits d.ty d.val) ∧
    typedViewAssert dims args = true ∧
    types (typedView dims args) = (List.zip args (types dims)).filterMap fun p => match p with
      | (.number _, _) => none
      | (.interval t _, u) => some (if t = ⟨0, -1⟩ then u else ⟨t.min, t.extent, u.stride⟩)
      | (.dim c, u) => some ⟨c.ty.min, c.ty.extent, u.stride⟩ := by
  have main : values (typedView dims args) = Shape.crop (values dims) (args.map SArg.toArg) ∧
    (∀ d ∈ typedView dims args, Fits d.ty d.val) ∧
    (List.zipWith SArg.rangeWithStrideAssert args dims).all id = true ∧
    types (typedView dims args) = (List.zip args (types dims)).filterMap fun p => match p with
      | (.number _, _) => none
      | (.interval t _, u) => some (if t = ⟨0, -1⟩ then u else ⟨t.min, t.extent, u.stride⟩)
      | (.dim c, u) => some ⟨c.ty.min, c.ty.extent, u.stride⟩ := by
    induction args generalizing dims with
    | nil =>
      obtain rfl : dims = [] := List.length_eq_zero_iff.1 hl.symm
      exact ⟨rfl, fun d hd => by simp [typedView] at hd, rfl, rfl⟩
    | cons a args ih =>
      obtain ⟨d, dims, rfl⟩ : ∃ d ds, dims = d :: ds := by
        cases dims with
        | nil => simp at hl
        | cons d ds => exact ⟨d, ds, rfl⟩
      obtain ⟨i1, i2, i3, i4⟩ := ih dims (by simpa using hl) (fun x hx => hd x (List.mem_cons_of_mem _ hx))
        (fun x hx => ha x (List.mem_cons_of_mem _ hx))
      obtain ⟨r1, r2, r3, r4⟩ := rangeWithStride_sound a d (ha a List.mem_cons_self) (hd d List.mem_cons_self)
      rw [typedView_cons]
      refine ⟨?_, ?_, ?_, ?_⟩
      · have : Shape.crop (values (d :: dims)) ((a :: args).map SArg.toArg) =
            Arg.skipSlices (a.toArg.rangeWithStride d.val) a.toArg ++ Shape.crop (values dims) (args.map SArg.toArg) := rfl
        rw [this, ← i1, ← r1]
        unfold values
        rw [List.map_append]
        congr 1
        cases a with
        | number x => rfl
        | interval t v =>
          by_cases ht : t = SArg.allT
          · simp [SArg.skipSlices, SArg.toArg, ht, Arg.skipSlices]
          · simp [SArg.skipSlices, SArg.toArg, ht, Arg.skipSlices]
        | dim c => rfl
      · intro x hx
        rcases List.mem_append.1 hx with hx | hx
        · cases a with
          | number x => simp [SArg.skipSlices] at hx
          | interval t v =>
            obtain rfl := List.mem_singleton.1 hx
            exact r2
          | dim c =>
            obtain rfl := List.mem_singleton.1 hx
            exact r2
        · exact i2 x hx
      · show (id (a.rangeWithStrideAssert d) && (List.zipWith SArg.rangeWithStrideAssert args dims).all id) = true
        rw [i3, id, r3]
        rfl
      · unfold types at i4 ⊢
        rw [List.map_append, i4]
        cases a with
        | number x => rfl
        | interval t v =>
          by_cases ht : t = SArg.allT
          · have ht' : t = ⟨0, -1⟩ := ht
            simp only [SArg.skipSlices, SArg.rangeWithStride, if_pos ht, List.map_cons, List.map_nil, List.zip_cons_cons,
              List.filterMap_cons, if_pos ht', List.singleton_append]
          · have ht' : ¬ t = ⟨0, -1⟩ := ht
            simp [SArg.skipSlices, SArg.rangeWithStride, SDim.rangeInterval, ht, ht']
        | dim c => rfl
  obtain ⟨h1, h2, h3, h4⟩ := main
  refine ⟨h1, h2, ?_, h4⟩
  unfold typedViewAssert
  rw [h3, Bool.true_and, List.all_eq_true]
  exact fun d hd => assertDimCompatible_of_fits (h2 d hd)

/-- `a(_, r<8>(3), 2)` for an array with static strides 1 and 10: its type is
`shape<dense_dim<0>, dim<dynamic, 8, 10>>`. -/
example : typedView [⟨⟨0, -9, 1⟩, ⟨0, 10, 1⟩⟩, ⟨⟨-9, -9, 10⟩, ⟨0, 20, 10⟩⟩, ⟨DimT.any, ⟨0, 3, 200⟩⟩]
      [.interval ⟨0, -1⟩ ⟨0, -1⟩, .interval ⟨-9, 8⟩ ⟨3, 8⟩, .number 2] =
    [⟨⟨0, -9, 1⟩, ⟨0, 10, 1⟩⟩, ⟨⟨-9, 8, 10⟩, ⟨3, 8, 10⟩⟩] := by decide

/-! ### Shapes from shapes -/

/-- C83: the requirement for conversions between `array_ref`s and for `is_compatible` is met for shapes of equal rank;
and, as the constructor from a list of dims takes anything as a dim, for any source if the destination has rank 1. -/
theorem C83_shapes (dst src : Nat) : enableIfShapesCompatible dst src = true ↔ dst = src ∨ dst = 1 := by
  unfold enableIfShapesCompatible shapeConstructors enableIfDimsCompatible
  by_cases h1 : src = dst
  · simp [h1]
  · by_cases h2 : dst = 1
    · simp [h2]
    · have h3 : ¬ 1 = dst := fun h => h2 h.symm
      have h4 : ¬ dst = src := fun h => h1 h.symm
      simp [h1, h2, h3, h4]

/-- C83: so a reference to an array of rank 3 appears to convert to a reference to an array of rank 1, but not the other
way round. -/
theorem C83_shapes_counterexample : enableIfShapesCompatible 1 3 = true ∧ enableIfShapesCompatible 3 1 = false := by decide

/-- test/errors.cpp:67 expects that `transpose<0>(s)` does not compile for a shape of rank 2, but it does; 69 and 71 do
not, and with `s3` for `s4` neither do 73-82. -/
example : permutationCheck 1 [0] = true ∧ permutationCheck 2 [0, 0] = false ∧ permutationCheck 2 [0, 2] = false ∧
    permutationCheck 3 [0, 0, 4] = false ∧ permutationCheck 2 [1, 2] = false := by decide

/-! ### Loops -/

/-- C83: `for_each_index<LoopOrder...>` and `for_all_indices<LoopOrder...>` compile for a function of `n` indices exactly
if `n` dims are named, each of them exists, and none is named twice; without loop order, if `n` is the rank. -/
theorem C83_loops (rank : Nat) (order : List Nat) (n : Nat) :
    loopCompiles rank order n = true ↔
      (order = [] ∧ n = rank) ∨ (order ≠ [] ∧ n = order.length ∧ (∀ k ∈ order, k < rank) ∧ order.Nodup) := by
  have hlen : (unshuffle order order).length = order.dedup.length := by
    have h1 : unshuffle order order =
        ((List.range (variadicMax (order.map Int.ofNat) + 1).toNat).filter fun j => decide (j ∈ order)).map fun j =>
          order.getD (order.idxOf j) default := flatMap_getOrEmpty rfl _
    rw [h1, List.length_map]
    refine List.Perm.length_eq ((List.perm_ext_iff_of_nodup (List.nodup_range.filter _) (List.nodup_dedup _)).2 ?_)
    intro j
    rw [List.mem_filter, List.mem_dedup, List.mem_range]
    simp only [decide_eq_true_eq]
    refine ⟨fun h => h.2, fun h => ⟨?_, h⟩⟩
    have := le_variadicMax (List.mem_map_of_mem (f := Int.ofNat) h)
    have h0 : Int.ofNat j = (j : Int) := rfl
    omega
  have hnd : order.length = order.dedup.length ↔ order.Nodup := by
    constructor
    · intro h
      rw [← List.dedup_eq_self]
      exact (List.dedup_sublist order).eq_of_length h.symm
    · intro h
      rw [List.dedup_eq_self.2 h]
  unfold loopCompiles
  by_cases ho : order = []
  · simp [ho]
  · rw [if_neg ho, hlen]
    simp only [Bool.and_eq_true, beq_iff_eq, List.all_eq_true, decide_eq_true_eq]
    constructor
    · rintro ⟨⟨h1, h2⟩, h3⟩
      exact .inr ⟨ho, h1, h2, hnd.1 (h1 ▸ h3)⟩
    · rintro (⟨h, -⟩ | ⟨-, h1, h2, h3⟩)
      · exact absurd h ho
      · exact ⟨⟨h1, h2⟩, h1.trans (hnd.2 h3)⟩

/-- test/errors.cpp:97-111: functions with too many or too few parameters. -/
example : loopCompiles 2 [] 3 = false ∧ loopCompiles 2 [] 1 = false ∧ loopCompiles 2 [0] 2 = false ∧
    loopCompiles 2 [0, 1] 1 = false := by decide

/-- Some of the dims in any order; not the same dim twice, and not dims that do not exist. -/
example : loopCompiles 2 [] 2 = true ∧ loopCompiles 3 [2, 0] 2 = true ∧ loopCompiles 2 [0, 0] 2 = false ∧
    loopCompiles 2 [0, 2] 2 = false := by decide

/-! ### Einstein reductions -/

/-- C83: the compile-time check of the dims of a loop of `ein_reduce` rejects only loops whose dims, whatever their
values, do not all have the same bounds. -/
theorem C83_reconcile (ds : List SDim) (h : reconcileEnabled ds = false) (hf : ∀ d ∈ ds, Fits d.ty d.val) :
    ∃ d ∈ ds, ∃ e ∈ ds, (d.val.min, d.val.extent) ≠ (e.val.min, e.val.extent) := by
  cases ds with
  | nil => simp [reconcileEnabled] at h
  | cons d0 ds =>
    unfold reconcileEnabled at h
    rw [Bool.and_eq_false_iff, Bool.not_eq_false', Bool.not_eq_false', any_iff, any_iff] at h
    simp only [List.mem_map] at h
    have hn : ∀ {a b v w : Int}, notEqual a b = true → Describes a v → Describes b w → v ≠ w := by
      intro a b v w hab ha hb hvw
      subst hvw
      rw [(notEqual_false_iff a b).2 ⟨v, ha, hb⟩] at hab
      exact Bool.noConfusion hab
    rcases h with ⟨b, ⟨d, hd, rfl⟩, hb⟩ | ⟨b, ⟨d, hd, rfl⟩, hb⟩
    · refine ⟨d0, List.mem_cons_self, d, List.mem_cons_of_mem _ hd, fun e => ?_⟩
      exact hn hb (hf d0 List.mem_cons_self).1 (hf d (List.mem_cons_of_mem _ hd)).1 (Prod.ext_iff.1 e).1
    · refine ⟨d0, List.mem_cons_self, d, List.mem_cons_of_mem _ hd, fun e => ?_⟩
      exact hn hb (hf d0 List.mem_cons_self).2.1 (hf d (List.mem_cons_of_mem _ hd)).2.1 (Prod.ext_iff.1 e).2

/-- C83: the first dim is compared with the others, but not these with each other: dims that can never agree are accepted
if the first has no static bounds, and fail the assertion of debug builds, whatever the first dim is. -/
theorem C83_reconcile_incomplete (d : Dim) :
    reconcileEnabled [⟨DimT.any, d⟩, ⟨⟨0, 3, 1⟩, ⟨0, 3, 1⟩⟩, ⟨⟨0, 4, 1⟩, ⟨0, 4, 1⟩⟩] = true ∧
    (d.stride = 0 → reconcileAssert [⟨DimT.any, d⟩, ⟨⟨0, 3, 1⟩, ⟨0, 3, 1⟩⟩, ⟨⟨0, 4, 1⟩, ⟨0, 4, 1⟩⟩] = false) := by
  constructor
  · rfl
  · intro hs
    have hs' : ¬ (d.stride ≠ 0) := fun h => h hs
    simp only [reconcileAssert, if_neg hs']
    by_cases he : d.extent = 3
    · simp [Nda.all, Nda.sum, he]
    · simp [Nda.all, Nda.sum, he]
      split <;> omega

example : reconcileEnabled [⟨⟨0, 3, 1⟩, ⟨0, 3, 1⟩⟩, ⟨⟨0, 4, 1⟩, ⟨0, 4, 1⟩⟩] = false ∧
    reconcileEnabled [⟨⟨0, 3, 1⟩, ⟨0, 3, 1⟩⟩, ⟨⟨-9, -9, 1⟩, ⟨0, 4, 1⟩⟩] = true := by decide

end Nda
