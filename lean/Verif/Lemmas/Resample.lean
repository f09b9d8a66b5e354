import Verif.Spec.Resample
import Verif.Lemmas.Loops
/-
Lemmas about the construction of resampling kernels (C46).
-/
namespace Nda
open Spec
variable {F : Type}

theorem Interval.iterate_eq {v : Interval} (h : 0 ≤ v.extent) : v.iterate = some (ints v.min v.extent) := by
  unfold Interval.iterate
  rw [rangeFor_iff]
  unfold Interval.begin_ Interval.end_ Interval.max
  exact ⟨by omega, by congr 1; omega⟩

theorem Interval.max_eq (v : Interval) : v.max = v.min + v.extent - 1 := rfl

theorem Dense1.set_some {T : Type} {a : Dense1 T} {i : Int} (h : InInterval a.dom i) (v : T) :
    a.set i v = some { a with data := fun j => if j = i then v else a.data j } := by
  unfold InInterval at h
  exact if_pos ⟨h.1, by rw [Interval.max_eq]; omega⟩

theorem Dense1.get_some {T : Type} {a : Dense1 T} {i : Int} (h : InInterval a.dom i) :
    a.get i = some (a.data i) := by
  unfold InInterval at h
  exact if_pos ⟨h.1, by rw [Interval.max_eq]; omega⟩

theorem scan_fold (o : FloatOps F) (kernel : F → F) (inX scale : F) (l : List Int) :
    ∀ st : KernelScan F, (∀ i ∈ l, InInterval st.buffer.dom i) →
    let w := fun rx => kernel (o.mul (o.sub (o.ofIndex rx) inX) scale)
    ∃ st', l.foldlM (kernelScanStep o kernel inX scale) st = some st' ∧
      st'.buffer.dom = st.buffer.dom ∧ (∀ j, st'.buffer.data j = if j ∈ l then w j else st.buffer.data j) ∧
      st'.sum = (l.filter fun i => o.nonZero (w i)).foldl (fun s i => o.add s (w i)) st.sum ∧
      st'.min = (l.filter fun i => o.nonZero (w i)).foldl imin st.min ∧
      st'.max = (l.filter fun i => o.nonZero (w i)).foldl imax st.max := by
  induction l with
  | nil => intro st _; exact ⟨st, rfl, rfl, by simp, rfl, rfl, rfl⟩
  | cons i l ih =>
    intro st h
    have hs := Dense1.set_some (h i (by simp)) (kernel (o.mul (o.sub (o.ofIndex i) inX) scale))
    simp only [List.foldlM_cons]
    unfold kernelScanStep
    simp only [hs, Option.bind_eq_bind, Option.bind_some]
    by_cases hz : o.nonZero (kernel (o.mul (o.sub (o.ofIndex i) inX) scale)) = true
    · rw [if_pos hz]
      simp only [Option.pure_def, Option.bind_some]
      obtain ⟨st', h1, h2, h3, h4, h5, h6⟩ := ih ⟨⟨st.buffer.dom, fun j => if j = i then
        kernel (o.mul (o.sub (o.ofIndex i) inX) scale) else st.buffer.data j⟩, imin st.min i, imax st.max i,
        o.add st.sum (kernel (o.mul (o.sub (o.ofIndex i) inX) scale))⟩ (fun j hj => h j (by simp [hj]))
      refine ⟨st', h1, h2, ?_, ?_, ?_, ?_⟩
      · intro j
        rw [h3 j]
        by_cases hj : j ∈ l
        · simp [hj]
        · by_cases hji : j = i
          · subst hji; simp [hj]
          · simp [hj, hji]
      · rw [List.filter_cons_of_pos (p := fun i => o.nonZero (kernel (o.mul (o.sub (o.ofIndex i) inX) scale))) hz]; exact h4
      · rw [List.filter_cons_of_pos (p := fun i => o.nonZero (kernel (o.mul (o.sub (o.ofIndex i) inX) scale))) hz]; exact h5
      · rw [List.filter_cons_of_pos (p := fun i => o.nonZero (kernel (o.mul (o.sub (o.ofIndex i) inX) scale))) hz]; exact h6
    · rw [if_neg hz]
      simp only [Option.pure_def, Option.bind_some]
      obtain ⟨st', h1, h2, h3, h4, h5, h6⟩ := ih ⟨⟨st.buffer.dom, fun j => if j = i then
        kernel (o.mul (o.sub (o.ofIndex i) inX) scale) else st.buffer.data j⟩, st.min, st.max, st.sum⟩
        (fun j hj => h j (by simp [hj]))
      refine ⟨st', h1, h2, ?_, ?_, ?_, ?_⟩
      · intro j
        rw [h3 j]
        by_cases hj : j ∈ l
        · simp [hj]
        · by_cases hji : j = i
          · subst hji; simp [hj]
          · simp [hj, hji]
      · rw [List.filter_cons_of_neg (p := fun i => o.nonZero (kernel (o.mul (o.sub (o.ofIndex i) inX) scale))) hz]; exact h4
      · rw [List.filter_cons_of_neg (p := fun i => o.nonZero (kernel (o.mul (o.sub (o.ofIndex i) inX) scale))) hz]; exact h5
      · rw [List.filter_cons_of_neg (p := fun i => o.nonZero (kernel (o.mul (o.sub (o.ofIndex i) inX) scale))) hz]; exact h6

theorem foldl_imin (l : List Int) : ∀ a, (l.foldl imin a = a ∨ l.foldl imin a ∈ l) ∧ l.foldl imin a ≤ a ∧
    ∀ i ∈ l, l.foldl imin a ≤ i := by
  induction l with
  | nil => intro a; simp
  | cons x l ih =>
    intro a
    obtain ⟨h1, h2, h3⟩ := ih (imin a x)
    rw [List.foldl_cons]
    have hx : imin a x = a ∧ a ≤ x ∨ imin a x = x ∧ x ≤ a := by
      unfold imin; split <;> omega
    refine ⟨?_, by omega, ?_⟩
    · rcases h1 with h1 | h1
      · rw [h1]
        rcases hx with h | h
        · exact Or.inl h.1
        · right; rw [h.1]; simp
      · right; simp [h1]
    · intro i hi
      rcases List.mem_cons.1 hi with rfl | hi
      · omega
      · exact h3 i hi

theorem foldl_imax (l : List Int) : ∀ a, (l.foldl imax a = a ∨ l.foldl imax a ∈ l) ∧ a ≤ l.foldl imax a ∧
    ∀ i ∈ l, i ≤ l.foldl imax a := by
  induction l with
  | nil => intro a; simp
  | cons x l ih =>
    intro a
    obtain ⟨h1, h2, h3⟩ := ih (imax a x)
    rw [List.foldl_cons]
    have hx : imax a x = a ∧ x ≤ a ∨ imax a x = x ∧ a ≤ x := by
      unfold imax; split <;> omega
    refine ⟨?_, by omega, ?_⟩
    · rcases h1 with h1 | h1
      · rw [h1]
        rcases hx with h | h
        · exact Or.inl h.1
        · right; rw [h.1]; simp
      · right; simp [h1]
    · intro i hi
      rcases List.mem_cons.1 hi with rfl | hi
      · omega
      · exact h3 i hi

/-- The fold that writes `f i` to each index of a list. -/
theorem set_fold {T : Type} (f : Int → Option T) (g : Int → T) (l : List Int) :
    ∀ a : Dense1 T, (∀ i ∈ l, InInterval a.dom i ∧ f i = some (g i)) →
    ∃ a', l.foldlM (fun (a : Dense1 T) i => do
        let b ← f i
        a.set i b) a = some a' ∧ a'.dom = a.dom ∧
      ∀ j, a'.data j = if j ∈ l then g j else a.data j := by
  induction l with
  | nil => intro a _; exact ⟨a, rfl, rfl, by simp⟩
  | cons i l ih =>
    intro a h
    obtain ⟨hi, hf⟩ := h i (by simp)
    simp only [List.foldlM_cons, hf, Option.bind_eq_bind, Option.bind_some, Dense1.set_some hi]
    obtain ⟨a', h1, h2, h3⟩ := ih ⟨a.dom, fun j => if j = i then g i else a.data j⟩
      (fun j hj => h j (by simp [hj]))
    refine ⟨a', h1, h2, ?_⟩
    intro j
    rw [h3 j]
    by_cases hj : j ∈ l
    · simp [hj]
    · by_cases hji : j = i
      · subst hji; simp [hj]
      · simp [hj, hji]

end Nda
