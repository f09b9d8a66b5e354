import Verif.Spec.Static
import Verif.Lemmas.Nested

namespace Nda
open Spec

theorem isStatic_iff (x : Int) : isStatic x = true ↔ x ≠ -9 := by simp [isStatic, dynamic]
theorem isDynamic_iff (x : Int) : isDynamic x = true ↔ x = -9 := by simp [isDynamic, dynamic]
theorem isDynamic2_iff (a b : Int) : isDynamic2 a b = true ↔ a = -9 ∨ b = -9 := by
  simp [isDynamic2, isDynamic_iff]
theorem describes_dynamic (v : Int) : Describes (-9) v := fun h => absurd rfl h
theorem describes_dynamic' (v : Int) : Describes dynamic v := fun h => absurd rfl h
theorem describes_self (v : Int) : Describes v v := fun _ => rfl

theorem ciInit_describes (V v : Int) : Describes V (ciInit V v) := by
  intro h
  unfold ciInit
  rw [if_pos ((isStatic_iff V).2 h)]

theorem ciInit_of_describes {V v : Int} (h : Describes V v) : ciInit V v = v := by
  unfold ciInit
  split
  · rename_i h2; exact (h ((isStatic_iff V).1 h2)).symm
  · rfl

theorem ciAssert_iff (V v : Int) : ciAssert V v = true ↔ Describes V v := by
  unfold ciAssert Describes
  rw [Bool.or_eq_true, isDynamic_iff, beq_iff_eq]
  by_cases h : V = -9 <;> simp [h]

theorem static2 {f : Int → Int → Int} {A B a b : Int} (hA : Describes A a) (hB : Describes B b)
    : Describes (if isDynamic2 A B then dynamic else f A B) (f a b) := by
  split
  · exact describes_dynamic' _
  · rename_i h
    rw [isDynamic2_iff] at h
    push Not at h
    rw [hA h.1, hB h.2]
    exact describes_self _

theorem staticAdd_describes {A B a b : Int} (hA : Describes A a) (hB : Describes B b) :
    Describes (staticAdd A B) (a + b) := static2 (f := fun x y => x + y) hA hB
theorem staticSub_describes {A B a b : Int} (hA : Describes A a) (hB : Describes B b) :
    Describes (staticSub A B) (a - b) := static2 (f := fun x y => x - y) hA hB
theorem staticMul_describes {A B a b : Int} (hA : Describes A a) (hB : Describes B b) :
    Describes (staticMul A B) (a * b) := static2 (f := fun x y => x * y) hA hB
theorem staticMin_describes {A B a b : Int} (hA : Describes A a) (hB : Describes B b) :
    Describes (staticMin A B) (min a b) := by
  have := static2 (f := fun x y => if x < y then x else y) hA hB
  have e : (if a < b then a else b) = min a b := by split <;> omega
  rwa [e] at this
theorem staticMax_describes {A B a b : Int} (hA : Describes A a) (hB : Describes B b) :
    Describes (staticMax A B) (max a b) := by
  have := static2 (f := fun x y => if x > y then x else y) hA hB
  have e : (if a > b then a else b) = max a b := by split <;> omega
  rwa [e] at this
theorem staticAbs_describes {A a : Int} (hA : Describes A a) : Describes (staticAbs A) |a| := by
  unfold staticAbs
  split
  · exact describes_dynamic' _
  · rename_i h
    rw [isDynamic_iff] at h
    rw [hA h, iabs_eq]
    exact describes_self _

theorem make_fits (t : DimT) (a b c : Int) : Fits t (t.make a b c) :=
  ⟨ciInit_describes _ _, ciInit_describes _ _, ciInit_describes _ _⟩

theorem makeAssert_iff (t : DimT) (a b c : Int) :
    t.makeAssert a b c = true ↔ Fits t ⟨a, b, c⟩ := by
  unfold DimT.makeAssert Fits
  simp only [Bool.and_eq_true, ciAssert_iff, and_assoc]

theorem make_of_fits {t : DimT} {a b c : Int} (h : Fits t ⟨a, b, c⟩) : t.make a b c = ⟨a, b, c⟩ := by
  unfold DimT.make
  rw [ciInit_of_describes h.1, ciInit_of_describes h.2.1, ciInit_of_describes h.2.2]

theorem defaultStride_describes (t : DimT) : Describes t.stride t.defaultStride := by
  intro h
  unfold DimT.defaultStride
  rw [if_pos ((isStatic_iff _).2 h)]

theorem setStrideAssert_iff (t : DimT) (c : Int) :
    t.setStrideAssert c = true ↔ (c = -9223372036854775808 ∨ Describes t.stride c) := by
  unfold DimT.setStrideAssert Describes
  simp only [Bool.or_eq_true, isDynamic_iff, isUnresolved_iff, beq_iff_eq]
  by_cases h : t.stride = -9 <;> simp [h]

theorem convertAssert_iff (t : DimT) (d : Dim) : t.convertAssert d = true ↔ Convertible t d := by
  unfold DimT.convertAssert Convertible
  rw [Bool.and_eq_true, makeAssert_iff, setStrideAssert_iff]
  unfold Fits
  have := defaultStride_describes t
  simp only
  tauto

theorem assertDimCompatible_iff (t : DimT) (d : Dim) :
    t.assertDimCompatible d = true ↔ Convertible t d := by
  unfold DimT.assertDimCompatible Convertible Describes isResolvedStride unresolved
  simp only [isStatic, dynamic, Bool.and_eq_true, bne_iff_ne, ne_eq]
  by_cases h1 : t.min = -9 <;> by_cases h2 : t.extent = -9 <;> by_cases h3 : t.stride = -9 <;>
    by_cases h4 : d.min = t.min <;> by_cases h5 : d.extent = t.extent <;>
    by_cases h6 : d.stride = t.stride <;> simp_all

theorem convert_fits (t : DimT) (d : Dim) : Fits t (t.convert d) := by
  unfold DimT.convert DimT.setStride
  split
  · exact make_fits _ _ _ _
  · rename_i h
    rw [isStatic_iff] at h
    have := make_fits t d.min d.extent t.defaultStride
    refine ⟨this.1, this.2.1, fun h2 => absurd h2 h⟩

theorem convert_of_convertible {t : DimT} {d : Dim} (h : Convertible t d) :
    (t.convert d).min = d.min ∧ (t.convert d).extent = d.extent ∧
    ((t.convert d).stride = d.stride ∨
      (d.stride = -9223372036854775808 ∧ (t.convert d).stride = t.stride)) := by
  unfold DimT.convert DimT.setStride
  have e1 : (t.make d.min d.extent t.defaultStride).min = d.min := ciInit_of_describes h.1
  have e2 : (t.make d.min d.extent t.defaultStride).extent = d.extent := ciInit_of_describes h.2.1
  split
  · rename_i hs
    rw [isStatic_iff] at hs
    refine ⟨e1, e2, ?_⟩
    have e3 : (t.make d.min d.extent t.defaultStride).stride = t.stride :=
      ciInit_describes _ _ hs
    rw [e3]
    rcases h.2.2 with h3 | h3
    · exact Or.inr ⟨h3, rfl⟩
    · exact Or.inl (h3 hs).symm
  · exact ⟨e1, e2, Or.inl rfl⟩

theorem assign_eq_convert (t : DimT) (d src : Dim) (hd : Fits t d) :
    t.assign d src = t.convert src := by
  unfold DimT.assign DimT.convert DimT.setStride DimT.setMin DimT.setExtent DimT.make
  split
  · rename_i h
    have := hd.2.2 ((isStatic_iff _).1 h)
    simp only
    congr 1
    rw [this]
    unfold ciInit
    rw [if_pos h]
  · rfl

end Nda
