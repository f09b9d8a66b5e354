import Verif.Spec.Bytes
import Verif.Props.Algorithms
import Verif.Props.Views
import Verif.Props.Offsets
import Mathlib.Data.Nat.Log
import Mathlib.Tactic.Ring
import Mathlib.Tactic.Linarith
/-
C87: elements as bytes: alignment, `reinterpret`, `reinterpret_const`.
-/
namespace Nda
open Spec

theorem bytes_length (m : ByteMem) (p : Int) (n : Nat) : (m.bytes p n).length = n := by simp [ByteMem.bytes]

theorem bytes_congr {m m' : ByteMem} {p : Int} {n : Nat} (h : ∀ x, p ≤ x → x < p + n → m'.byte x = m.byte x) :
    m'.bytes p n = m.bytes p n := by
  unfold ByteMem.bytes
  refine List.map_congr_left fun k hk => h _ (by omega) ?_
  have := List.mem_range.1 hk
  omega

theorem bytes_setBytes (m : ByteMem) (p : Int) (bs : List Nat) : (m.setBytes p bs).bytes p bs.length = bs := by
  apply List.ext_getElem
  · simp [bytes_length]
  · intro k h1 h2
    simp only [ByteMem.bytes, ByteMem.setBytes, List.getElem_map, List.getElem_range]
    rw [if_pos (by constructor <;> omega)]
    have : (p + (k : Int) - p).toNat = k := by omega
    rw [this, List.getD_eq_getElem _ _ h2]

theorem setBytes_outside (m : ByteMem) (p : Int) (bs : List Nat) (x : Int) (h : ¬ (p ≤ x ∧ x < p + bs.length)) :
    (m.setBytes p bs).byte x = m.byte x := by
  simp only [ByteMem.setBytes]
  rw [if_neg h]

theorem addr_of_base {a : TypedRef} {b : Int} (hb : a.base = some b) (i : Index) :
    a.addr i = some (elemAddr b a.type.size a.shape i) := by
  unfold TypedRef.addr elemAddr
  rw [hb, flatOffset_eq]
  rfl

theorem emod_dvd {p : Int} {n : Nat} : p % (n : Int) ≠ 0 ↔ ¬ (n : Int) ∣ p := by
  rw [not_iff_not]
  exact ⟨Int.dvd_of_emod_eq_zero, Int.emod_eq_zero_of_dvd⟩

theorem load_ok {m : ByteMem} {u : ObjType} {p : Int} {o : Obj} (ho : m.obj p = some o) (bs : List Nat) :
    m.load u p = .ok bs ↔ (u.align : Int) ∣ p ∧ u.mayAccess o.type = true ∧ bs = m.bytes p u.size := by
  unfold ByteMem.load ByteMem.access
  by_cases h1 : (u.align : Int) ∣ p
  · rw [if_neg (by rw [emod_dvd]; exact not_not.2 h1), ho]
    dsimp only
    by_cases h2 : u.mayAccess o.type = true
    · rw [if_pos h2]
      simp only [bind, Except.bind, Except.ok.injEq]
      exact ⟨fun h => ⟨h1, h2, h.symm⟩, fun h => h.2.2.symm⟩
    · rw [if_neg h2]
      simp [bind, Except.bind, h2]
  · rw [if_pos (by rw [emod_dvd]; exact h1)]
    simp [bind, Except.bind, h1]

theorem store_ok {m m' : ByteMem} {u : ObjType} {p : Int} {o : Obj} (ho : m.obj p = some o) (bs : List Nat) :
    m.store u p bs = .ok m' ↔
      (u.align : Int) ∣ p ∧ u.mayAccess o.type = true ∧ o.const = false ∧ m' = m.setBytes p bs := by
  unfold ByteMem.store ByteMem.access
  by_cases h1 : (u.align : Int) ∣ p
  · rw [if_neg (by rw [emod_dvd]; exact not_not.2 h1), ho]
    dsimp only
    by_cases h2 : u.mayAccess o.type = true
    · rw [if_pos h2]
      simp only [bind, Except.bind]
      cases o.const <;> simp [h1, h2, eq_comm]
    · rw [if_neg h2]
      simp [bind, Except.bind, h2]
  · rw [if_pos (by rw [emod_dvd]; exact h1)]
    simp [bind, Except.bind, h1]

theorem mayAccess_self (t : ObjType) : t.mayAccess t = true := by simp [ObjType.mayAccess]

/-- Elements are the same or do not overlap. -/
theorem elemAddr_apart {b : Int} {n : Nat} {s : Shape} {i j : Index} (h : offsetOf s i ≠ offsetOf s j) :
    elemAddr b n s i + n ≤ elemAddr b n s j ∨ elemAddr b n s j + n ≤ elemAddr b n s i := by
  unfold elemAddr
  rcases lt_or_gt_of_ne h with h | h
  · left
    have : (n : Int) * (offsetOf s i + 1) ≤ n * offsetOf s j := Int.mul_le_mul_of_nonneg_left h (by omega)
    rw [mul_add, mul_one] at this
    omega
  · right
    have : (n : Int) * (offsetOf s j + 1) ≤ n * offsetOf s i := Int.mul_le_mul_of_nonneg_left h (by omega)
    rw [mul_add, mul_one] at this
    omega

/-- C87: reading an element of an array gives its bytes, and nothing goes wrong. -/
theorem C87_get (a : TypedRef) (m : ByteMem) (h : Elements a m) (i : Index) (hi : InBox a.shape i) :
    ∃ p, a.addr i = some p ∧ a.get i m = .ok (m.bytes p a.type.size) := by
  obtain ⟨b, hb, he⟩ := h
  refine ⟨_, addr_of_base hb i, ?_⟩
  unfold TypedRef.get
  rw [addr_of_base hb]
  dsimp only
  rw [load_ok (he i hi).2]
  exact ⟨(he i hi).1, mayAccess_self _, rfl⟩

/-- C87: `reinterpret<U>(a)` has the elements of `a`: each occupies the same bytes. -/
theorem C87_same_bytes (u : ObjType) (a : TypedRef) (he : reinterpretEnabled u a = true) (i : Index) :
    (reinterpretRef u a).addr i = a.addr i ∧ (reinterpretRef u a).shape = a.shape ∧
    ∀ x, ByteOf (reinterpretRef u a) i x ↔ ByteOf a i x := by
  unfold reinterpretEnabled at he
  rw [beq_iff_eq] at he
  refine ⟨?_, rfl, ?_⟩
  · simp only [TypedRef.addr, reinterpretRef, he]
  · intro x
    simp only [ByteOf, reinterpretRef, he]

/-- C87: for types of another size, which `reinterpret` rejects, all elements but those at offset 0 would be
elsewhere. -/
theorem C87_other_size (u : ObjType) (a : TypedRef) (he : reinterpretEnabled u a = false) (b : Int)
    (hb : a.base = some b) (i : Index) (hi : offsetOf a.shape i ≠ 0) : (reinterpretRef u a).addr i ≠ a.addr i := by
  unfold reinterpretEnabled at he
  rw [beq_eq_false_iff_ne] at he
  rw [addr_of_base hb, addr_of_base (a := reinterpretRef u a) hb]
  simp only [reinterpretRef, elemAddr, ne_eq, Option.some.injEq, add_right_inj]
  intro e
  have := mul_right_cancel₀ hi e
  omega

/-- C87: an element may be read through `reinterpret<U>(a)` if and only if C++ allows to access the type of the
elements through `U` and the address is aligned for `U`; then the bytes are those of the element. -/
theorem C87_reinterpret_get (u : ObjType) (a : TypedRef) (m : ByteMem) (h : Elements a m)
    (he : reinterpretEnabled u a = true) (i : Index) (hi : InBox a.shape i) :
    ((∃ bs, (reinterpretRef u a).get i m = .ok bs) ↔
      u.mayAccess a.type = true ∧ ∃ p, a.addr i = some p ∧ (u.align : Int) ∣ p) ∧
    ∀ bs, (reinterpretRef u a).get i m = .ok bs → a.get i m = .ok bs := by
  obtain ⟨p, hp, hg⟩ := C87_get a m h i hi
  obtain ⟨b, hb, hel⟩ := h
  have hpe : p = elemAddr b a.type.size a.shape i := by
    rw [addr_of_base hb] at hp
    exact (Option.some.inj hp).symm
  have ho := (hel i hi).2
  rw [← hpe] at ho
  have hs : a.type.size = u.size := by simpa [reinterpretEnabled] using he
  have e : ∀ bs, (reinterpretRef u a).get i m = .ok bs ↔
      (u.align : Int) ∣ p ∧ u.mayAccess a.type = true ∧ bs = m.bytes p u.size := by
    intro bs
    unfold TypedRef.get
    rw [(C87_same_bytes u a he i).1, hp]
    exact load_ok ho bs
  constructor
  · rw [hp]
    constructor
    · rintro ⟨bs, hbs⟩
      have := (e bs).1 hbs
      exact ⟨this.2.1, p, rfl, this.1⟩
    · rintro ⟨h1, q, hq, h2⟩
      rw [← Option.some.inj hq] at h2
      exact ⟨_, (e _).2 ⟨h2, h1, rfl⟩⟩
  · intro bs hbs
    rw [hg, ((e bs).1 hbs).2.2, hs]

/-- C87: assigning to an element through `reinterpret<U>(a)` changes the bytes of this element and no others, and
leaves an array. -/
theorem C87_reinterpret_set (u : ObjType) (a : TypedRef) (m m' : ByteMem) (h : Elements a m)
    (he : reinterpretEnabled u a = true) (i : Index) (hi : InBox a.shape i) (bs : List Nat)
    (hl : bs.length = u.size) (e : (reinterpretRef u a).set i bs m = .ok m') :
    Elements a m' ∧ a.get i m' = .ok bs ∧ (reinterpretRef u a).get i m' = .ok bs ∧
    (∀ j, InBox a.shape j → offsetOf a.shape j ≠ offsetOf a.shape i → a.get j m' = a.get j m) ∧
    ∀ x, ¬ ByteOf a i x → m'.byte x = m.byte x := by
  obtain ⟨p, hp, hg⟩ := C87_get a m h i hi
  have hE := h
  obtain ⟨b, hb, hel⟩ := h
  have hpe : p = elemAddr b a.type.size a.shape i := by
    rw [addr_of_base hb] at hp
    exact (Option.some.inj hp).symm
  have ho := (hel i hi).2
  rw [← hpe] at ho
  have hs : a.type.size = u.size := by simpa [reinterpretEnabled] using he
  unfold TypedRef.set at e
  rw [(C87_same_bytes u a he i).1, hp] at e
  dsimp only at e
  obtain ⟨h1, h2, -, rfl⟩ := (store_ok ho bs).1 e
  have hE' : Elements a (m.setBytes p bs) := ⟨b, hb, hel⟩
  have hbytes : (m.setBytes p bs).bytes p a.type.size = bs := by
    rw [hs, ← hl]
    exact bytes_setBytes m p bs
  refine ⟨hE', ?_, ?_, ?_, ?_⟩
  · obtain ⟨q, hq, hg'⟩ := C87_get a _ hE' i hi
    rw [hp] at hq
    rw [hg', ← Option.some.inj hq, hbytes]
  · unfold TypedRef.get
    rw [(C87_same_bytes u a he i).1, hp]
    refine (load_ok (m := m.setBytes p bs) (o := ⟨a.type, false⟩) ho bs).2 ⟨h1, h2, ?_⟩
    change bs = (m.setBytes p bs).bytes p u.size
    rw [← hs, hbytes]
  · intro j hj hne
    obtain ⟨q, hq, hg1⟩ := C87_get a _ hE' j hj
    obtain ⟨q', hq', hg2⟩ := C87_get a _ hE j hj
    rw [hq] at hq'
    rw [hg1, hg2, ← Option.some.inj hq']
    rw [addr_of_base hb] at hq
    have hqe := (Option.some.inj hq).symm
    congr 1
    refine bytes_congr fun x hx1 hx2 => setBytes_outside _ _ _ _ ?_
    have := elemAddr_apart (b := b) (n := a.type.size) hne
    rw [← hqe, ← hpe] at this
    omega
  · intro x hx
    refine setBytes_outside _ _ _ _ fun hx' => hx ⟨b, hb, ?_⟩
    rw [← hpe]
    omega

/-- C87: what is written through `reinterpret<U>(a)` is read again through it, and read through `a` it is what the
bytes mean as a value of the type of `a`; in the other direction, too. -/
theorem C87_values {V W : Type} (u : ObjType) (a : TypedRef) (m : ByteMem) (h : Elements a m)
    (he : reinterpretEnabled u a = true) (i : Index) (hi : InBox a.shape i) (hu : u.mayAccess a.type = true)
    (hal : u.align ∣ a.type.align) (ra : Representation a.type V) (ru : Representation u W) :
    (∀ v : W, ∃ m', (reinterpretRef u a).set i (ru.encode v) m = .ok m' ∧
      ((reinterpretRef u a).get i m').map ru.decode = .ok v ∧
      (a.get i m').map ra.decode = .ok (ra.decode (ru.encode v))) ∧
    ∀ v : V, a.get i m = .ok (ra.encode v) →
      ((reinterpretRef u a).get i m).map ru.decode = .ok (ru.decode (ra.encode v)) := by
  obtain ⟨p, hp, hg⟩ := C87_get a m h i hi
  have hE := h
  obtain ⟨b, hb, hel⟩ := h
  have hpe : p = elemAddr b a.type.size a.shape i := by
    rw [addr_of_base hb] at hp
    exact (Option.some.inj hp).symm
  have hd : (u.align : Int) ∣ p := by
    rw [hpe]
    exact (Int.natCast_dvd_natCast.2 hal).trans (hel i hi).1
  have ho := (hel i hi).2
  rw [← hpe] at ho
  constructor
  · intro v
    have hset : (reinterpretRef u a).set i (ru.encode v) m = .ok (m.setBytes p (ru.encode v)) := by
      unfold TypedRef.set
      rw [(C87_same_bytes u a he i).1, hp]
      exact (store_ok ho _).2 ⟨hd, hu, rfl, rfl⟩
    obtain ⟨-, h1, h2, -⟩ := C87_reinterpret_set u a m _ hE he i hi _ (ru.length v) hset
    refine ⟨_, hset, ?_, ?_⟩
    · rw [h2]
      simp [Except.map, ru.decode_encode]
    · rw [h1]
      rfl
  · intro v hv
    obtain ⟨bs, hbs⟩ := (C87_reinterpret_get u a m hE he i hi).1.2 ⟨hu, p, hp, hd⟩
    have := (C87_reinterpret_get u a m hE he i hi).2 bs hbs
    rw [hv] at this
    rw [hbs, ← Except.ok.inj this]
    rfl

/-- C87: reinterpreting back gives the ref again, and reinterpreting commutes with crops and slices. -/
theorem C87_views (u : ObjType) (a : TypedRef) (he : reinterpretEnabled u a = true) (args : List Arg) :
    reinterpretEnabled a.type (reinterpretRef u a) = true ∧
    reinterpretRef a.type (reinterpretRef u a) = a ∧
    reinterpretRef u (a.crop args) = (reinterpretRef u a).crop args := by
  have hs : a.type.size = u.size := by simpa [reinterpretEnabled] using he
  refine ⟨by simp [reinterpretEnabled, reinterpretRef, hs], rfl, ?_⟩
  simp only [reinterpretRef, TypedRef.crop, hs]

/-- C87: elements of a crop are elements of the array. -/
theorem C87_crop (a : TypedRef) (m : ByteMem) (h : Elements a m) (args : List Arg)
    (hl : args.length = a.shape.length) (hr : a.shape.isInRangeArgs args = true) :
    Elements (a.crop args) m ∧ ∀ j, InBox (a.crop args).shape j → (a.crop args).addr j = a.addr (fullIndex args j) := by
  obtain ⟨b, hb, hel⟩ := h
  have hk : ∀ j, InBox (a.shape.crop args) j → j.length = keptRank args := by
    intro j hj
    rw [inBox_length hj, crop_length hl]
  have haddr : ∀ j, InBox (a.shape.crop args) j →
      elemAddr (b + a.type.size * a.shape.flatOffset (Shape.minsOfIntervals args a.shape)) a.type.size
        (a.shape.crop args) j = elemAddr b a.type.size a.shape (fullIndex args j) := by
    intro j hj
    obtain ⟨b', hb', e⟩ := C20_address ⟨some 0, a.shape⟩ args hl 0 rfl j (hk j hj)
    have hb'' : b' = a.shape.flatOffset (Shape.minsOfIntervals args a.shape) := by
      simp only [ArrayRef.crop, pointerAdd, Option.map_some, Option.some.injEq] at hb'
      omega
    have e' : b' + offsetOf (a.shape.crop args) j = offsetOf a.shape (fullIndex args j) := by
      have : (ArrayRef.crop ⟨some 0, a.shape⟩ args).shape = a.shape.crop args := rfl
      rw [this] at e
      simpa using e
    unfold elemAddr
    rw [← e', ← hb'']
    ring
  have hbase : (a.crop args).base =
      some (b + a.type.size * a.shape.flatOffset (Shape.minsOfIntervals args a.shape)) := by
    simp [TypedRef.crop, hb]
  constructor
  · refine ⟨_, hbase, fun j hj => ?_⟩
    have := hel _ (C21_inside a.shape args hl hr j hj)
    change (a.type.align : Int) ∣ elemAddr _ a.type.size (a.shape.crop args) j ∧
      m.obj (elemAddr _ a.type.size (a.shape.crop args) j) = some ⟨a.type, false⟩
    rw [haddr j hj]
    exact this
  · intro j hj
    rw [addr_of_base hbase, addr_of_base hb]
    change some (elemAddr _ a.type.size (a.shape.crop args) j) = _
    rw [haddr j hj]

/-! ### Alignment -/

theorem construct_ok {m : ByteMem} {t : ObjType} {p : Int} (h : (t.align : Int) ∣ p) (bs : List Nat) :
    m.construct t p bs = .ok { m.setBytes p bs with obj := fun x => if x = p then some ⟨t, false⟩ else m.obj x } := by
  unfold ByteMem.construct
  rw [if_neg (by rw [emod_dvd]; exact not_not.2 h)]

/-- Constructing objects at aligned addresses that are the same or apart. -/
theorem construct_all (t : ObjType) (b : Int) (bs : List Nat) (hl : bs.length = t.size) (l : List Int) (m : ByteMem)
    (h : ∀ o ∈ l, (t.align : Int) ∣ b + t.size * o) :
    ∃ m', l.foldlM (fun m o => m.construct t (b + t.size * o) bs) m = .ok m' ∧
      (∀ o ∈ l, m'.obj (b + t.size * o) = some ⟨t, false⟩ ∧ m'.bytes (b + t.size * o) t.size = bs) ∧
      (∀ x, (∀ o ∈ l, x ≠ b + t.size * o) → m'.obj x = m.obj x) ∧
      ∀ x, (∀ o ∈ l, ¬ (b + t.size * o ≤ x ∧ x < b + t.size * o + t.size)) → m'.byte x = m.byte x := by
  induction l generalizing m with
  | nil => exact ⟨m, rfl, by simp, fun _ _ => rfl, fun _ _ => rfl⟩
  | cons o l ih =>
    have h0 := construct_ok (m := m) (h o (by simp)) bs
    set m1 : ByteMem := { m.setBytes (b + t.size * o) bs with
      obj := fun x => if x = b + t.size * o then some ⟨t, false⟩ else m.obj x } with hm1
    obtain ⟨m', e, h1, h2, h3⟩ := ih m1 fun o' ho' => h o' (by simp [ho'])
    refine ⟨m', ?_, ?_, ?_, ?_⟩
    · rw [List.foldlM_cons, h0]
      exact e
    · intro o' ho'
      by_cases hin : o' ∈ l
      · exact h1 o' hin
      · have ho : o' = o := by simpa [hin] using ho'
        subst ho
        have hdiff : ∀ q ∈ l, q ≠ o' := fun q hq e => hin (e ▸ hq)
        constructor
        · by_cases hs : t.size = 0
          · rcases l with _ | ⟨q, l⟩
            · rw [h2 _ (by simp)]
              simp [hm1]
            · have := (h1 q (by simp)).1
              rw [hs] at this ⊢
              simpa using this
          · rw [h2 _ ?_]
            · simp [hm1]
            · intro q hq e
              have : (t.size : Int) * o' = t.size * q := by linarith
              have := mul_left_cancel₀ (by exact_mod_cast hs) this
              exact hdiff q hq this.symm
        · have : m'.bytes (b + t.size * o') t.size = m1.bytes (b + t.size * o') t.size := by
            refine bytes_congr fun x hx1 hx2 => h3 x fun q hq => ?_
            have := hdiff q hq
            rcases lt_or_gt_of_ne this with h' | h'
            · have : (t.size : Int) * (q + 1) ≤ t.size * o' := Int.mul_le_mul_of_nonneg_left h' (by omega)
              rw [mul_add, mul_one] at this
              omega
            · have : (t.size : Int) * (o' + 1) ≤ t.size * q := Int.mul_le_mul_of_nonneg_left h' (by omega)
              rw [mul_add, mul_one] at this
              omega
          rw [this]
          have hb := bytes_setBytes m (b + t.size * o') bs
          rw [hl] at hb
          exact hb
    · intro x hx
      rw [h2 x fun q hq => hx q (by simp [hq])]
      simp only [hm1]
      rw [if_neg (hx o (by simp))]
    · intro x hx
      rw [h3 x fun q hq => hx q (by simp [hq])]
      exact setBytes_outside _ _ _ _ (by rw [hl]; exact hx o (by simp))

theorem forEachValue_zero {s : Shape} (h : NonNeg s) (o : Int) :
    o ∈ s.forEachValue (some 0) ↔ ∃ i, InBox s i ∧ o = offsetOf s i := by
  have := (C14_calls ⟨some 0, s⟩ 0 rfl h).2 o
  unfold ArrayRef.forEachValue at this
  simpa using this

/-- C87: constructing the elements of an array in memory whose address is aligned for their type succeeds; then every
element is an object at an aligned address that has the given value, and nothing outside of the memory that the
array asked for (`flat_extent()` elements) has changed. -/
theorem C87_construct (t : ObjType) (ht : GoodType t) (s : Shape) (hs : Pos s) (p : Int) (hp : (t.align : Int) ∣ p)
    (bs : List Nat) (hl : bs.length = t.size) (m : ByteMem) :
    ∃ m', constructElements (arrayAtAddress t s p) bs m = .ok m' ∧ Elements (arrayAtAddress t s p) m' ∧
      (∀ i, InBox s i → (arrayAtAddress t s p).get i m' = .ok bs) ∧
      ∀ x, (x < p ∨ p + t.size * s.flatExtent ≤ x) → m'.byte x = m.byte x ∧ m'.obj x = m.obj x := by
  have hn : NonNeg s := fun d hd => (hs d hd).le
  have hal : ∀ o : Int, (t.align : Int) ∣ (p - t.size * s.flatMin) + t.size * o := by
    intro o
    have h1 : (t.align : Int) ∣ t.size := Int.natCast_dvd_natCast.2 ht.mult
    exact dvd_add (dvd_sub hp (h1.mul_right _)) (h1.mul_right _)
  obtain ⟨m', e, h1, h2, h3⟩ := construct_all t (p - t.size * s.flatMin) bs hl (s.forEachValue (some 0)) m
    fun o _ => hal o
  have hmem : ∀ i, InBox s i → offsetOf s i ∈ s.forEachValue (some 0) := fun i hi =>
    (forEachValue_zero hn _).2 ⟨i, hi, rfl⟩
  have hE : Elements (arrayAtAddress t s p) m' :=
    ⟨_, rfl, fun i hi => ⟨hal _, (h1 _ (hmem i hi)).1⟩⟩
  have hrange : ∀ o ∈ s.forEachValue (some 0), p ≤ (p - t.size * s.flatMin) + t.size * o ∧
      (p - t.size * s.flatMin) + t.size * o + t.size ≤ p + t.size * s.flatExtent := by
    intro o ho
    obtain ⟨i, hi, rfl⟩ := (forEachValue_zero hn o).1 ho
    have hr := (C02_flat_extent_exact hs).1 i hi
    rw [flatOffset_eq] at hr
    have e1 : (0 : Int) ≤ t.size * (offsetOf s i - s.flatMin) := Int.mul_nonneg (by omega) hr.1
    have e2 : (t.size : Int) * ((offsetOf s i - s.flatMin) + 1) ≤ t.size * s.flatExtent :=
      Int.mul_le_mul_of_nonneg_left hr.2 (by omega)
    rw [mul_sub] at e1
    rw [mul_add, mul_sub, mul_one] at e2
    constructor <;> omega
  refine ⟨m', e, hE, ?_, ?_⟩
  · intro i hi
    obtain ⟨q, hq, hg⟩ := C87_get _ _ hE i hi
    rw [hg]
    rw [addr_of_base (a := arrayAtAddress t s p) rfl] at hq
    have := (h1 _ (hmem i hi)).2
    rw [← Option.some.inj hq]
    exact congrArg _ this
  · intro x hx
    have hpos := ht.size
    constructor
    · refine h3 x fun o ho => ?_
      have := hrange o ho
      omega
    · refine h2 x fun o ho => ?_
      have := hrange o ho
      omega

/-- C87: in memory whose address is not aligned, constructing an array goes wrong. -/
theorem C87_misaligned (t : ObjType) (ht : GoodType t) (s : Shape) (hs : Pos s) (p : Int)
    (hp : ¬ (t.align : Int) ∣ p) (bs : List Nat) (m : ByteMem) :
    constructElements (arrayAtAddress t s p) bs m = .error .misaligned := by
  have hn : NonNeg s := fun d hd => (hs d hd).le
  unfold constructElements arrayAtAddress
  dsimp only
  rcases hl : s.forEachValue (some 0) with _ | ⟨o, l⟩
  · exfalso
    obtain ⟨⟨i, hi, -⟩, -⟩ := C02_flat_bounds_attained hs
    have := (forEachValue_zero hn _).2 ⟨i, hi, rfl⟩
    rw [hl] at this
    simp at this
  · rw [List.foldlM_cons]
    have : ¬ (t.align : Int) ∣ (p - t.size * s.flatMin) + t.size * o := by
      intro h
      have h1 : (t.align : Int) ∣ t.size := Int.natCast_dvd_natCast.2 ht.mult
      apply hp
      have h2 := dvd_add (dvd_sub h (h1.mul_right o)) (h1.mul_right s.flatMin)
      simpa using h2
    unfold ByteMem.construct
    rw [if_pos (by rw [emod_dvd]; exact this)]
    rfl

theorem alignasEnabled_iff (n : Nat) (h : n ≠ 0) : alignasEnabled n = true ↔ ∃ k, n = 2 ^ k := by
  unfold alignasEnabled
  simp only [Bool.or_eq_true, beq_iff_eq, h, false_or]
  constructor
  · intro e
    exact ⟨_, e.symm⟩
  · rintro ⟨k, rfl⟩
    rw [Nat.log2_two_pow]

/-- C87: memory from `auto_allocator<T, N, Alignment>` is aligned for `T` if `Alignment` is at least `alignof(T)`,
whether it is the buffer (aligned as `alignas` says) or from the base allocator. -/
theorem C87_auto (t : ObjType) (ht : GoodType t) (alignment : Nat) (he : autoAllocatorEnabled alignment = true)
    (ha : t.align ≤ alignment) (N : Nat) (allocated : Bool) (buffer base : Int) (n : Nat)
    (hbuf : (alignment : Int) ∣ buffer) (hbase : (t.align : Int) ∣ base) :
    (t.align : Int) ∣ autoAllocate N allocated buffer base n := by
  unfold autoAllocate
  split
  · obtain ⟨k, hk⟩ := ht.align
    have hpos : 0 < t.align := by rw [hk]; exact Nat.two_pow_pos k
    obtain ⟨j, rfl⟩ := (alignasEnabled_iff alignment (by omega)).1 he
    have : k ≤ j := by
      rw [hk] at ha
      exact (Nat.pow_le_pow_iff_right (by omega)).1 ha
    refine dvd_trans ?_ hbuf
    rw [hk]
    exact Int.natCast_dvd_natCast.2 (pow_dvd_pow 2 this)
  · exact hbase

/-- C87: the buffer of `auto_allocator` is returned only while it is free and only if the `n` elements fit into its
bytes; it is used whenever both hold; otherwise the memory is that of the base allocator. -/
theorem C87_auto_room (t : ObjType) (N : Nat) (allocated : Bool) (buffer base : Int) (n : Nat) :
    (autoAllocate N allocated buffer base n ≠ base → allocated = false ∧
      buffer ≤ autoAllocate N allocated buffer base n ∧
      autoAllocate N allocated buffer base n + n * t.size ≤ buffer + N * t.size) ∧
    (allocated = false → n ≤ N → autoAllocate N allocated buffer base n = buffer) := by
  unfold autoAllocate
  constructor
  · split
    · rename_i h
      simp only [Bool.and_eq_true, Bool.not_eq_true', decide_eq_true_eq] at h
      intro _
      refine ⟨h.1, le_refl _, ?_⟩
      have := Nat.mul_le_mul_right t.size h.2
      have h2 : ((n * t.size : Nat) : Int) ≤ (N * t.size : Nat) := by exact_mod_cast this
      push_cast at h2
      omega
    · intro h
      exact absurd rfl h
  · intro h1 h2
    rw [if_pos (by simp [h1, h2])]

example : autoAllocate 4 false 64 1000 4 = 64 ∧ autoAllocate 4 false 64 1000 5 = 1000 ∧
    autoAllocate 4 true 64 1000 3 = 1000 := by decide +kernel

/-- C87: for every smaller `Alignment` the buffer may be at an address where `T` must not be constructed. -/
theorem C87_auto_small (t : ObjType) (alignment : Nat) (h0 : 0 < alignment) (ha : alignment < t.align) :
    ∃ buffer : Int, (alignment : Int) ∣ buffer ∧ ¬ (t.align : Int) ∣ autoAllocate 1 false buffer 0 1 := by
  refine ⟨alignment, dvd_refl _, ?_⟩
  simp only [autoAllocate]
  rw [if_pos (by simp)]
  intro h
  have := Nat.le_of_dvd h0 (Int.natCast_dvd_natCast.1 h)
  omega

/-- C87: the default alignment of `auto_allocator` always compiles and suffices.  The default of
`uninitialized_auto_allocator` compiles if and only if the size of `T` is a power of two; then it suffices. -/
theorem C87_defaults (t : ObjType) (ht : GoodType t) :
    (autoAllocatorEnabled (autoAllocatorDefault t) = true ∧ t.align ≤ autoAllocatorDefault t) ∧
    (autoAllocatorEnabled (uninitializedAutoDefault t) = true ↔ ∃ k, t.size = 2 ^ k) ∧
    t.align ≤ uninitializedAutoDefault t := by
  obtain ⟨k, hk⟩ := ht.align
  have hpos : 0 < t.align := by rw [hk]; exact Nat.two_pow_pos k
  refine ⟨⟨(alignasEnabled_iff _ (by simp only [autoAllocatorDefault]; omega)).2 ⟨k, hk⟩, le_refl _⟩, ?_, ?_⟩
  · exact alignasEnabled_iff _ (by have := ht.size; simp only [uninitializedAutoDefault]; omega)
  · exact Nat.le_of_dvd ht.size ht.mult

/-- C87: `auto_allocator`s of one type can be compared if and only if their base allocator is the default one. -/
theorem C87_compare (a : AutoType) : autoEqualEnabled a a = true ↔ a.base = .std a.elem := by
  simp [autoEqualEnabled]

/-! ### What types may be used -/

/-- C87: if types that are the same but for signedness have the same alignment and bytes have none, all elements may
be read through `reinterpret<U>(a)` exactly if `U` is a type for bytes or the type of the elements but for
signedness; so for no other types, whatever their sizes. -/
theorem C87_types (u : ObjType) (a : TypedRef) (m : ByteMem) (h : Elements a m) (hp : Pos a.shape)
    (he : reinterpretEnabled u a = true) (hk : u.kind = a.type.kind → u.align = a.type.align)
    (hb : u.anyByte = true → u.align = 1) :
    (∀ i, InBox a.shape i → ∃ bs, (reinterpretRef u a).get i m = .ok bs) ↔
      u.anyByte = true ∨ u.kind = a.type.kind := by
  have hm : u.mayAccess a.type = true ↔ u.anyByte = true ∨ u.kind = a.type.kind := by
    simp [ObjType.mayAccess]
  constructor
  · intro hall
    obtain ⟨⟨i, hi, -⟩, -⟩ := C02_flat_bounds_attained hp
    exact hm.1 ((C87_reinterpret_get u a m h he i hi).1.1 (hall i hi)).1
  · intro hu i hi
    refine (C87_reinterpret_get u a m h he i hi).1.2 ⟨hm.2 hu, ?_⟩
    obtain ⟨b, hbase, hel⟩ := h
    refine ⟨_, addr_of_base hbase i, ?_⟩
    rcases hu with hu | hu
    · rw [hb hu]
      exact one_dvd _
    · rw [hk hu]
      exact (hel i hi).1

/-- C87: `reinterpret_const<T>(a)` is `a` without the `const`: assignments through it are defined for elements that
are not const objects, as those of arrays are not. -/
theorem C87_reinterpret_const (u : ObjType) (a : TypedRef) (m : ByteMem) (h : Elements a m)
    (he : reinterpretConstEnabled u a = true) (i : Index) (hi : InBox a.shape i) (bs : List Nat)
    (hl : bs.length = u.size) :
    a.setEnabled = false ∧ (reinterpretConst u a).setEnabled = true ∧ (reinterpretConst u a).addr i = a.addr i ∧
    ∃ m', (reinterpretConst u a).set i bs m = .ok m' ∧ a.get i m' = .ok bs ∧
      (∀ j, InBox a.shape j → offsetOf a.shape j ≠ offsetOf a.shape i → a.get j m' = a.get j m) := by
  simp only [reinterpretConstEnabled, Bool.and_eq_true, beq_iff_eq] at he
  obtain ⟨hc, hu⟩ := he
  subst hu
  refine ⟨by simp [TypedRef.setEnabled, hc], rfl, rfl, ?_⟩
  have hen : reinterpretEnabled a.type a = true := by simp [reinterpretEnabled]
  have hset : (reinterpretConst a.type a).set i bs m = (reinterpretRef a.type a).set i bs m := rfl
  obtain ⟨b, hb, hel⟩ := h
  have : (reinterpretRef a.type a).set i bs m =
      .ok (m.setBytes (elemAddr b a.type.size a.shape i) bs) := by
    unfold TypedRef.set
    rw [(C87_same_bytes a.type a hen i).1, addr_of_base hb]
    exact (store_ok (hel i hi).2 _).2 ⟨(hel i hi).1, mayAccess_self _, rfl, rfl⟩
  obtain ⟨-, h1, -, h3, -⟩ := C87_reinterpret_set a.type a m _ ⟨b, hb, hel⟩ hen i hi bs hl this
  exact ⟨_, hset.trans this, h1, h3⟩

/-! ### Examples -/

/-- `int`, `unsigned`, `float`, a struct of three bytes and `unsigned char` on common machines. -/
def intType : ObjType := ⟨0, 4, 4, false⟩
def floatType : ObjType := ⟨1, 4, 4, false⟩
def rgbType : ObjType := ⟨2, 3, 1, false⟩
def charType : ObjType := ⟨3, 1, 1, false⟩
def ucharType : ObjType := ⟨4, 1, 1, true⟩

/-- No objects. -/
def emptyBytes : ByteMem := ⟨fun _ => 0, fun _ => none⟩

/-- Reading element `i` of an array of `t` through `reinterpret<U>`. -/
def readThrough (t u : ObjType) (s : Shape) (p : Int) (bs : List Nat) (i : Index) :
    Except AccessFault (List Nat) := do
  let a := arrayAtAddress t s p
  let m ← constructElements a bs emptyBytes
  (reinterpretRef u a).get i m

/-- C87 is false for the use in test/array_ref.cpp:39-61: reading an array of `int` through `reinterpret<float>` is
undefined, although the sizes agree. -/
theorem C87_float_counterexample :
    (∃ s : Shape, Pos s ∧ reinterpretEnabled floatType (arrayAtAddress intType s 16) = true ∧
      readThrough intType floatType s 16 [0, 0, 0, 65] [1, 1] = .error .aliasing) ∧
    readThrough intType intType [⟨0, 4, 1⟩, ⟨0, 5, 4⟩] 16 [0, 0, 0, 65] [1, 1] = .ok [0, 0, 0, 65] :=
  ⟨⟨[⟨0, 4, 1⟩, ⟨0, 5, 4⟩], by unfold Pos; decide, by decide +kernel, by decide +kernel⟩, by decide +kernel⟩

/-- C87: `uninitialized_auto_allocator<T, N>` does not compile for a struct of three bytes, `auto_allocator<T, N>`
does. -/
theorem C87_uninitialized_counterexample :
    ∃ t, GoodType t ∧ autoAllocatorEnabled (uninitializedAutoDefault t) = false ∧
      autoAllocatorEnabled (autoAllocatorDefault t) = true :=
  ⟨rgbType, ⟨by decide, ⟨0, rfl⟩, by decide, by decide⟩, by decide +kernel, by decide +kernel⟩

/-- C87: arrays whose `auto_allocator` has another base allocator cannot be moved, because their allocators cannot be
compared. -/
theorem C87_compare_counterexample : ∃ a : AutoType, autoEqualEnabled a a = false :=
  ⟨⟨0, 16, 4, .other 0⟩, by decide +kernel⟩

/-- Assigning through `reinterpret_const` to an object that is const is undefined. -/
example : (reinterpretConst intType ⟨some 16, intType, true, [⟨0, 1, 1⟩]⟩).set [0] [1, 0, 0, 0]
    ⟨fun _ => 0, fun x => if x = 16 then some ⟨intType, true⟩ else none⟩ = .error .constObject := by rfl

/-- Bytes may be read through `unsigned char`. -/
example : readThrough charType ucharType [⟨-1, 3, -2⟩, ⟨0, 2, 7⟩] 101 [77] [1, 1] = .ok [77] := by decide +kernel

/-- A misaligned array. -/
example : readThrough intType intType [⟨0, 3, 1⟩] 18 [1, 2, 3, 4] [1] = .error .misaligned := by decide +kernel

example : GoodType intType := ⟨by decide, ⟨2, rfl⟩, by decide, by decide⟩

end Nda
