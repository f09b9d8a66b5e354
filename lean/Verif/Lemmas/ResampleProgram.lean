import Verif.Spec.ResampleProgram
import Verif.Lemmas.RoundingResample
import Verif.Lemmas.Tiling
import Verif.Props.Algorithms
import Verif.Props.Layouts
import Verif.Props.ResampleImage
/-
Lemmas about the program that resizes images.
-/
namespace Nda
open Spec

section
variable {α β : Type}

theorem foldlM_convert (conv : α → Option β) (ms : Mem α) (tr : List (Int × Int)) (md : Mem β) (g : Int → β)
    (hg : ∀ p ∈ tr, conv (ms p.1) = some (g p.2)) :
    ∃ md', tr.foldlM (fun md p => do
        let v ← conv (ms p.1)
        pure (Mem.set md p.2 v)) md = some md' ∧
      (∀ p ∈ tr, md' p.2 = g p.2) ∧ ∀ x, (∀ p ∈ tr, p.2 ≠ x) → md' x = md x := by
  induction tr generalizing md with
  | nil => exact ⟨md, rfl, by simp, fun _ _ => rfl⟩
  | cons p tr ih =>
    obtain ⟨md', e, h1, h2⟩ := ih (md.set p.2 (g p.2)) (fun q hq => hg q (by simp [hq]))
    refine ⟨md', ?_, ?_, ?_⟩
    · rw [List.foldlM_cons, hg p (by simp)]
      exact e
    · intro q hq
      rcases List.mem_cons.1 hq with rfl | hq
      · by_cases h : ∃ r ∈ tr, r.2 = q.2
        · obtain ⟨r, hr, er⟩ := h
          rw [← er]
          exact h1 r hr
        · push Not at h
          rw [h2 _ h]
          simp [Mem.set]
      · exact h1 q hq
    · intro x hx
      rw [h2 x fun q hq => hx q (by simp [hq])]
      exact Mem.set_other _ _ fun e => hx p (by simp) e.symm

theorem foldlM_convert_none (conv : α → Option β) (ms : Mem α) (tr : List (Int × Int)) (md : Mem β)
    (h : ∃ p ∈ tr, conv (ms p.1) = none) :
    tr.foldlM (fun md p => do
        let v ← conv (ms p.1)
        pure (Mem.set md p.2 v)) md = none := by
  induction tr generalizing md with
  | nil => simp at h
  | cons p tr ih =>
    rw [List.foldlM_cons]
    cases e : conv (ms p.1) with
    | none => rfl
    | some v =>
      obtain ⟨q, hq, eq⟩ := h
      rcases List.mem_cons.1 hq with rfl | hq
      · rw [e] at eq; simp at eq
      · exact ih _ ⟨q, hq, eq⟩

end

theorem inBox_three {a b c : Dim} {l : List Int} :
    InBox [a, b, c] l ↔ ∃ x y z, l = [x, y, z] ∧ (a.min ≤ x ∧ x < a.min + a.extent) ∧
      (b.min ≤ y ∧ y < b.min + b.extent) ∧ (c.min ≤ z ∧ z < c.min + c.extent) := by
  rcases l with _ | ⟨x, _ | ⟨y, _ | ⟨z, _ | ⟨t, l⟩⟩⟩⟩ <;> simp [InBox]

theorem offsetOf_three (a b c : Dim) (x y z : Int) :
    offsetOf [a, b, c] [x, y, z] = (x - a.min) * a.stride + (y - b.min) * b.stride + (z - c.min) * c.stride := by
  simp [offsetOf]; ring

/-- The dims of a planar image with `c` channels. -/
def planarOf (w h c buf : Int) : Image3 :=
  ⟨some buf, ⟨⟨dynamic, dynamic, 1⟩, ⟨0, w, 1⟩⟩, ⟨⟨dynamic, dynamic, dynamic⟩, ⟨0, h, w⟩⟩,
    ⟨⟨dynamic, dynamic, dynamic⟩, ⟨0, c, h * w⟩⟩⟩

theorem planarImage_eq {w h c : Int} (hs : ImageSize w h c) (buf : Int) : planarImage w h c buf = planarOf w h c buf := by
  obtain ⟨-, es, -, hc⟩ := C67_planar 0 0 0 w h c hs
  have e : planarDims w h c = [⟨⟨dynamic, dynamic, 1⟩, ⟨0, w, 1⟩⟩, ⟨⟨dynamic, dynamic, dynamic⟩, ⟨0, h, w⟩⟩,
      ⟨⟨dynamic, dynamic, dynamic⟩, ⟨0, c, h * w⟩⟩] := by
    unfold planarDims
    dsimp only
    rw [es]
    rfl
  obtain ⟨h1, h2, h3, -⟩ := hs
  have hhw : 0 ≤ h * w := mul_nonneg (by omega) (by omega)
  have i0 : ∀ x : Int, 0 ≤ x → imin 0 x = 0 ∧ imax 0 x = x := fun x hx => by
    unfold imin imax
    constructor <;> split <;> omega
  have m0 : Shape.flatMin [⟨0, w, 1⟩, ⟨0, h, w⟩, ⟨0, c, h * w⟩] = 0 := by
    simp only [Shape.flatMin, List.map_cons, List.map_nil, (i0 1 (by omega)).1, (i0 w (by omega)).1, (i0 _ hhw).1, mul_zero]
    rfl
  have m1 : 0 < Shape.flatExtent [⟨0, w, 1⟩, ⟨0, h, w⟩, ⟨0, c, h * w⟩] := by
    have hx : 0 ≤ Shape.flatMax [⟨0, w, 1⟩, ⟨0, h, w⟩, ⟨0, c, h * w⟩] := by
      simp only [Shape.flatMax, List.map_cons, List.map_nil, (i0 1 (by omega)).2, (i0 w (by omega)).2, (i0 _ hhw).2]
      have a1 : 0 ≤ (h - 1) * w := mul_nonneg (by omega) (by omega)
      have a2 : 0 ≤ (c - 1) * (h * w) := mul_nonneg (by omega) hhw
      show 0 ≤ (w - 1) * 1 + (h - 1) * w + (c - 1) * (h * w)
      omega
    unfold Shape.flatExtent
    simp only [m0]
    split <;> omega
  unfold planarImage
  rw [e]
  show Image3.mk (if Shape.flatExtent [⟨0, w, 1⟩, ⟨0, h, w⟩, ⟨0, c, h * w⟩] > 0 then
    some (buf - Shape.flatMin [⟨0, w, 1⟩, ⟨0, h, w⟩, ⟨0, c, h * w⟩]) else none) _ _ _ = _
  rw [if_pos m1, m0, sub_zero]
  rfl

theorem pixelRef_eq {w h : Int} (hs : ImageSize w h 4) (base : Int) :
    pixelRef base w h = ⟨some base, [⟨0, w, 4⟩, ⟨0, h, w * 4⟩, ⟨0, 4, 1⟩]⟩ := by
  obtain ⟨-, es, -⟩ := C67_chunky 4 0 0 w h 4 (Or.inl rfl) hs
  unfold pixelRef ArrayRef.make
  rw [es]

theorem planar_values (w h c buf : Int) :
    values (planarOf w h c buf).dims = [⟨0, w, 1⟩, ⟨0, h, w⟩, ⟨0, c, h * w⟩] := rfl

theorem planar_inBox {w h c buf : Int} {l : List Int} :
    InBox (values (planarOf w h c buf).dims) l ↔
      ∃ x y z, l = [x, y, z] ∧ (0 ≤ x ∧ x < w) ∧ (0 ≤ y ∧ y < h) ∧ 0 ≤ z ∧ z < c := by
  rw [planar_values, inBox_three]
  simp only [zero_add]

theorem planar_address {w h c buf : Int} (x y z : Int) :
    buf + offsetOf (values (planarOf w h c buf).dims) [x, y, z] = pixelAddress (planarOf w h c buf) buf x y z := by
  rw [planar_values, offsetOf_three]
  unfold pixelAddress planarOf
  ring

theorem pixel_address {w h base : Int} (x y z : Int) :
    base + offsetOf [⟨0, w, 4⟩, ⟨0, h, w * 4⟩, ⟨0, 4, 1⟩] [x, y, z] = componentAddress base w x y z := by
  rw [offsetOf_three]
  unfold componentAddress
  ring

theorem pixel_inBox {w h : Int} {l : List Int} :
    InBox [⟨0, w, 4⟩, ⟨0, h, w * 4⟩, ⟨0, 4, 1⟩] l ↔ ∃ x y z, l = [x, y, z] ∧ IsComponent w h x y z := by
  rw [inBox_three]
  simp only [zero_add, IsComponent]

theorem component_injective {w h cache x y c x' y' c' : Int} (h1 : IsComponent w h x y c) (h2 : IsComponent w h x' y' c')
    (e : componentAddress cache w x y c = componentAddress cache w x' y' c') : x = x' ∧ y = y' ∧ c = c' := by
  obtain ⟨⟨a1, a2⟩, -, a3, a4⟩ := h1
  obtain ⟨⟨b1, b2⟩, -, b3, b4⟩ := h2
  unfold componentAddress at e
  have e1 : c = c' := by omega
  have e2 : y * w + x = y' * w + x' := by omega
  have e3 : y = y' := by
    rcases lt_trichotomy y y' with h | h | h
    · have : (y + 1) * w ≤ y' * w := mul_le_mul_of_nonneg_right (by omega) (by omega)
      rw [add_mul] at this; omega
    · exact h
    · have : (y' + 1) * w ≤ y * w := mul_le_mul_of_nonneg_right (by omega) (by omega)
      rw [add_mul] at this; omega
  subst e3
  exact ⟨by omega, rfl, e1⟩

theorem component_range {w h cache x y c : Int} (h1 : IsComponent w h x y c) :
    cache ≤ componentAddress cache w x y c ∧ componentAddress cache w x y c < cache + 4 * (w * h) := by
  obtain ⟨⟨a1, a2⟩, ⟨c1, c2⟩, a3, a4⟩ := h1
  unfold componentAddress
  have b1 : 0 ≤ y * w := mul_nonneg (by omega) (by omega)
  have b2 : (y + 1) * w ≤ h * w := mul_le_mul_of_nonneg_right (by omega) (by omega)
  rw [add_mul] at b2
  rw [mul_comm w h]
  constructor <;> omega

/-- Distinct pixels of a planar image have distinct addresses. -/
theorem planar_injective {w h c buf : Int} (hs : ImageSize w h c) : Injective (values (planarOf w h c buf).dims) := by
  obtain ⟨-, es, hoff, -, hc⟩ := C67_planar 0 0 0 w h c hs
  rw [es] at hc hoff
  have hfo : ∀ l, InBox [⟨0, w, 1⟩, ⟨0, h, w⟩, ⟨0, c, h * w⟩] l →
      Shape.flatOffset [⟨0, w, 1⟩, ⟨0, h, w⟩, ⟨0, c, h * w⟩] l = offsetOf [⟨0, w, 1⟩, ⟨0, h, w⟩, ⟨0, c, h * w⟩] l := by
    intro l hl
    obtain ⟨x, y, z, rfl, -⟩ := inBox_three.1 hl
    rw [hoff, offsetOf_three]
    ring
  intro i j hi hj e
  refine hc i j hi hj ?_
  rw [hfo i hi, hfo j hj]
  exact e

section
variable {F : Type}

/-- `for_each_value` with a function that updates the value. -/
theorem update_values (a : ArrayRef) (b : Int) (hb : a.base = some b) (hn : NonNeg a.shape) (hi : Injective a.shape)
    (g : F → F) (m : Mem F) :
    (∀ i, InBox a.shape i → updateValues a g m (b + offsetOf a.shape i) = g (m (b + offsetOf a.shape i))) ∧
    ∀ x, (∀ i, InBox a.shape i → x ≠ b + offsetOf a.shape i) → updateValues a g m x = m x := by
  have hp : a.forEachValue.Perm ((boxList a.shape).map fun i => b + offsetOf a.shape i) := by
    unfold ArrayRef.forEachValue
    rw [hb]
    exact forEachValue_perm a.shape hn b
  have hnd : a.forEachValue.Nodup := by
    refine hp.nodup_iff.2 ((boxList_nodup _).map_on fun i h1 j h2 e => ?_)
    exact hi i j (mem_boxList.1 h1) (mem_boxList.1 h2) (by simpa using e)
  have hmem : ∀ x, x ∈ a.forEachValue ↔ ∃ i, InBox a.shape i ∧ b + offsetOf a.shape i = x := by
    intro x
    rw [hp.mem_iff, List.mem_map]
    simp only [mem_boxList]
  unfold updateValues
  constructor
  · intro i hi
    rw [foldl_update, List.count_eq_one_of_mem hnd ((hmem _).2 ⟨i, hi, rfl⟩)]
    rfl
  · intro x hx
    rw [foldl_update, List.count_eq_zero.2]
    · rfl
    · intro h
      obtain ⟨i, hi, e⟩ := (hmem x).1 h
      exact hx i hi e.symm

end

theorem planar_nonNeg {w h c buf : Int} (hs : ImageSize w h c) : NonNeg (values (planarOf w h c buf).dims) := by
  rw [planar_values]
  intro d hd
  simp only [List.mem_cons, List.not_mem_nil, or_false] at hd
  obtain ⟨h1, h2, h3, -⟩ := hs
  rcases hd with rfl | rfl | rfl <;> simp only <;> omega

theorem pixel_nonNeg {w h : Int} (hs : ImageSize w h 4) : NonNeg [⟨0, w, 4⟩, ⟨0, h, w * 4⟩, ⟨0, 4, 1⟩] := by
  intro d hd
  simp only [List.mem_cons, List.not_mem_nil, or_false] at hd
  obtain ⟨h1, h2, h3, -⟩ := hs
  rcases hd with rfl | rfl | rfl <;> simp only <;> omega

section
variable {F : Type} {o : FloatOps F}

theorem toInt_small {v : Int} (h0 : 0 ≤ v) (h1 : v ≤ 9223372036854775807) : (BitVec.ofInt 64 v).toInt = v := by
  rw [BitVec.toInt_ofInt, Int.bmod_eq_of_le] <;> norm_num <;> omega

/-- The rate of two sizes. -/
theorem rate_make {n d : Int} (hn0 : 1 ≤ n) (hn : n ≤ 9223372036854775807) (hd0 : 1 ≤ d) (hd : d ≤ 9223372036854775807) :
    ∃ r, Rational.mk2 (BitVec.ofInt 64 n) (BitVec.ofInt 64 d) = some r ∧ Canonical r ∧ value r = (n : ℚ) / d ∧
      0 < value r ∧ r.n.toInt ≤ n ∧ r.d.toInt ≤ d := by
  have en := toInt_small (v := n) (by omega) hn
  have ed := toInt_small (v := d) (by omega) hd
  obtain ⟨r, e, hr, hv⟩ := C45_make (BitVec.ofInt 64 n) (BitVec.ofInt 64 d) (by omega)
  rw [en, ed] at hv
  have hdq : (0 : ℚ) < d := by exact_mod_cast (by omega : 0 < d)
  have hnq : (0 : ℚ) < n := by exact_mod_cast (by omega : 0 < n)
  have hp : 0 < value r := by rw [hv]; exact div_pos hnq hdq
  refine ⟨r, e, hr, hv, hp, ?_⟩
  have hc := hr.1
  have hcq : (0 : ℚ) < r.d.toInt := by exact_mod_cast hc
  have hx : r.n.toInt * d = n * r.d.toInt := by
    unfold value at hv
    rw [div_eq_div_iff hcq.ne' hdq.ne'] at hv
    exact_mod_cast hv
  have g1 : r.n.toInt ∣ n := by
    have : r.n.toInt ∣ n * r.d.toInt := ⟨d, hx.symm⟩
    exact Int.dvd_of_dvd_mul_left_of_gcd_one this hr.2
  have g2 : r.d.toInt ∣ d := by
    have : r.d.toInt ∣ d * r.n.toInt := ⟨n, by rw [mul_comm d, hx, mul_comm]⟩
    exact Int.dvd_of_dvd_mul_left_of_gcd_one this (by rw [Int.gcd_comm]; exact hr.2)
  exact ⟨Int.le_of_dvd (by omega) g1, Int.le_of_dvd (by omega) g2⟩

/-- The values of the kernels. -/
theorem kernel_index {in_ out : Interval} {rate : Rational} {kernel : F → F} (hout : 0 ≤ out.extent)
    (hp : ∀ x, InInterval out x → ∃ p, kernelPosition x rate = some p ∧
      ∃ i, InInterval in_ i ∧ o.nonZero (weight o kernel rate p i) = true) {ks : Dense1 (Dense1 F)}
    (hks : buildKernels o in_ out rate kernel = some ks) {x r : Int} (h : KernelIndex ks x r) :
    InInterval out x ∧ 0 ≤ r - (ks.data x).dom.min ∧ r - (ks.data x).dom.min < in_.extent := by
  obtain ⟨ks', h1, h2, h3⟩ := C46_kernels o in_ out rate kernel hout hp
  obtain rfl : ks = ks' := Option.some.inj (hks.symm.trans h1)
  obtain ⟨hx, hr⟩ := h
  rw [h2] at hx
  obtain ⟨p, hp1, -⟩ := hp x hx
  obtain ⟨g1, g2, -⟩ := h3 x p hx hp1
  have a1 := g1 r hr
  have a2 := g1 _ g2
  unfold InInterval at *
  refine ⟨hx, ?_, ?_⟩ <;> omega

end

theorem planar_pixel_range {w h c buf p : Int} (hs : ImageSize w h c) (hp : PixelOf (planarOf w h c buf) buf p) :
    buf ≤ p ∧ p < buf + w * h * c := by
  obtain ⟨-, es, hoff, hc, -⟩ := C67_planar 0 0 0 w h c hs
  rw [es] at hc hoff
  obtain ⟨x, y, z, hx, hy, hz, rfl⟩ := hp
  have hi : InBox [⟨0, w, 1⟩, ⟨0, h, w⟩, ⟨0, c, h * w⟩] [x, y, z] :=
    inBox_three.2 ⟨x, y, z, rfl, hx, hy, hz⟩
  have := (hc (Shape.flatOffset [⟨0, w, 1⟩, ⟨0, h, w⟩, ⟨0, c, h * w⟩] [x, y, z])).2 ⟨_, hi, rfl⟩
  rw [hoff] at this
  unfold pixelAddress planarOf
  simp only
  have e : ((z - 0) * h + (y - 0)) * w + (x - 0) = (x - 0) * 1 + (y - 0) * w + (z - 0) * (h * w) := by ring
  rw [e] at this
  constructor <;> omega

theorem image_size {w h : Int} (hw : 1 ≤ w ∧ w < 2 ^ 29) (hh : 1 ≤ h ∧ h < 2 ^ 29) : ImageSize w h 4 := by
  refine ⟨hw.1, hh.1, by omega, ?_⟩
  have h1 : w * h ≤ 2 ^ 29 * 2 ^ 29 := mul_le_mul hw.2.le hh.2.le (by omega) (by norm_num)
  norm_num at h1
  rw [mul_assoc]
  omega

end Nda
