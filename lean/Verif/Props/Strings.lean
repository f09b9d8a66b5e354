import Verif.Model.Strings
import Mathlib.Tactic.Linarith
/-
C60: the texts of intervals, dims and shapes determine their values.
-/
namespace Nda

/-- Characters of numbers. -/
def IsNumChar (c : Char) : Prop := c = '-' ∨ c.isDigit = true

theorem decimal_chars (x : Int) : ∀ c ∈ decimal x, IsNumChar c := by
  intro c hc
  unfold decimal at hc
  split at hc
  · rcases List.mem_cons.1 hc with h | h
    · exact Or.inl h
    · exact Or.inr (Nat.isDigit_of_mem_toDigits (by decide) (by decide) h)
  · exact Or.inr (Nat.isDigit_of_mem_toDigits (by decide) (by decide) hc)

theorem minus_not_digits (n : Nat) (l : List Char) : '-' :: l ≠ Nat.toDigits 10 n := by
  intro h
  have : ('-' : Char) ∈ Nat.toDigits 10 n := by rw [← h]; simp
  exact absurd (Nat.isDigit_of_mem_toDigits (by decide) (by decide) this) (by decide)

theorem digits_injective {m n : Nat} (h : Nat.toDigits 10 m = Nat.toDigits 10 n) : m = n := by
  have h1 := Nat.ofDigitChars_toDigits (b := 10) (n := m) (by decide) (by decide)
  have h2 := Nat.ofDigitChars_toDigits (b := 10) (n := n) (by decide) (by decide)
  rw [h] at h1
  omega

/-- Different numbers have different decimal notations. -/
theorem decimal_injective {x y : Int} (h : decimal x = decimal y) : x = y := by
  unfold decimal at h
  split at h <;> split at h
  · have := digits_injective (List.cons.inj h).2; omega
  · exact absurd h (minus_not_digits _ _)
  · exact absurd h.symm (minus_not_digits _ _)
  · have := digits_injective h; omega

/-- A number ends at the first other character. -/
theorem split_number {a b : List Char} {c d : Char} {r s : List Char} (ha : ∀ x ∈ a, IsNumChar x)
    (hb : ∀ x ∈ b, IsNumChar x) (hc : ¬ IsNumChar c) (hd : ¬ IsNumChar d) (h : a ++ c :: r = b ++ d :: s) :
    a = b ∧ c = d ∧ r = s := by
  induction a generalizing b with
  | nil =>
    cases b with
    | nil => simp at h; exact ⟨rfl, h.1, h.2⟩
    | cons y b => simp at h; exact absurd (h.1 ▸ hb y (by simp)) hc
  | cons x a ih =>
    cases b with
    | nil => simp at h; exact absurd (h.1 ▸ ha x (by simp)) hd
    | cons y b =>
      simp only [List.cons_append, List.cons.injEq] at h
      obtain ⟨h1, h2, h3⟩ := ih (b := b) (fun z hz => ha z (by simp [hz])) (fun z hz => hb z (by simp [hz])) h.2
      exact ⟨by rw [h.1, h1], h2, h3⟩

theorem split_decimal {x y : Int} {c d : Char} {r s : List Char} (hc : ¬ IsNumChar c) (hd : ¬ IsNumChar d)
    (h : decimal x ++ c :: r = decimal y ++ d :: s) : x = y ∧ c = d ∧ r = s := by
  obtain ⟨h1, h2⟩ := split_number (decimal_chars x) (decimal_chars y) hc hd h
  exact ⟨decimal_injective h1, h2⟩

/-- The decimal notation is that of Lean. -/
theorem decimal_toString (x : Int) : decimal x = (toString x).toList := by
  unfold decimal
  cases x with
  | ofNat n =>
    rw [if_neg (by simp)]
    simp [toString, Int.repr, Nat.repr]
  | negSucc n =>
    rw [if_pos (Int.negSucc_lt_zero n)]
    simp [toString, Int.repr, Nat.repr]

theorem comma_other : ¬ IsNumChar ',' := by unfold IsNumChar; decide
theorem paren_other : ¬ IsNumChar ')' := by unfold IsNumChar; decide
theorem angle_other : ¬ IsNumChar '>' := by unfold IsNumChar; decide

/-- C60: intervals have the same text exactly if they have the same min and extent. -/
theorem C60_interval (v u : Interval) : v.text = u.text ↔ v = u := by
  constructor
  · intro h
    unfold Interval.text at h
    simp only [String.reduceToList, List.cons_append, List.nil_append, List.append_assoc, List.cons.injEq, true_and] at h
    obtain ⟨h1, _, h2⟩ := split_decimal comma_other comma_other h
    simp only [List.cons.injEq, true_and] at h2
    obtain ⟨h3, _⟩ := split_decimal paren_other paren_other h2
    obtain ⟨a, b⟩ := v
    obtain ⟨c, d⟩ := u
    simp only at h1 h3
    subst h1
    simp only [Interval.mk.injEq, true_and]
    omega
  · rintro rfl; rfl

/-- C60: the text of an interval shows two numbers between which exactly its indices are: the first is the least,
the second is not one of them any more. -/
theorem C60_interval_bounds (v : Interval) : ∃ a b : Int,
    v.text = "[".toList ++ (toString a).toList ++ ", ".toList ++ (toString b).toList ++ ")".toList ∧
    ∀ i, (v.min ≤ i ∧ i < v.min + v.extent) ↔ a ≤ i ∧ i < b := by
  refine ⟨v.min, v.min + v.extent, ?_, fun i => Iff.rfl⟩
  unfold Interval.text
  rw [decimal_toString, decimal_toString]

/-- The text of a dim can be separated from what follows. -/
theorem split_dim {d e : Dim} {r s : List Char} (h : d.text ++ r = e.text ++ s) : d = e ∧ r = s := by
  unfold Dim.text at h
  obtain ⟨d1, d2, d3⟩ := d
  obtain ⟨e1, e2, e3⟩ := e
  have hres : ∀ x, isResolvedStride x = true ↔ x ≠ unresolved := by intro x; simp [isResolvedStride]
  split at h <;> rename_i hd <;> split at h <;> rename_i he <;>
    simp only [String.reduceToList, List.cons_append, List.nil_append, List.append_assoc, List.cons.injEq, true_and] at h <;>
    obtain ⟨h1, _, h2⟩ := split_decimal comma_other comma_other h <;>
    simp only [List.cons.injEq, true_and] at h2
  · obtain ⟨h3, _, h4⟩ := split_decimal comma_other comma_other h2
    simp only [List.cons.injEq, true_and] at h4
    obtain ⟨h5, _, h6⟩ := split_decimal paren_other paren_other h4
    exact ⟨by simp_all, h6⟩
  · obtain ⟨_, h3, _⟩ := split_decimal comma_other paren_other h2
    exact absurd h3 (by decide)
  · obtain ⟨_, h3, _⟩ := split_decimal paren_other comma_other h2
    exact absurd h3 (by decide)
  · obtain ⟨h3, _, h4⟩ := split_decimal paren_other paren_other h2
    rw [hres, not_not] at hd he
    exact ⟨by simp_all, h4⟩

/-- C60: dims have the same text exactly if min, extent and stride are the same (a stride that is not known is not
shown). -/
theorem C60_dim (d e : Dim) : d.text = e.text ↔ d = e :=
  ⟨fun h => (split_dim (r := []) (s := []) (by simpa using h)).1, fun h => by rw [h]⟩

theorem joinDims_injective {s t : List Dim} (hl : s.length = t.length) {q r : List Char}
    (h : joinDims s ++ q = joinDims t ++ r) : s = t := by
  induction s generalizing t with
  | nil => exact (List.length_eq_zero_iff.1 hl.symm).symm
  | cons d s ih =>
    match t, hl with
    | e :: t, hl =>
      match s, t, hl with
      | [], [], _ =>
        simp only [joinDims] at h
        rw [(split_dim h).1]
      | d' :: s, e' :: t, hl =>
        simp only [joinDims, List.append_assoc] at h
        obtain ⟨h1, h2⟩ := split_dim h
        simp only [String.reduceToList, List.cons_append, List.nil_append, List.cons.injEq, true_and] at h2
        have := ih (t := e' :: t) (by simpa using hl) h2
        rw [h1, this]

/-- C60: shapes, of any ranks, have the same text exactly if they have the same dims. -/
theorem C60_shape (s t : Shape) : s.text = t.text ↔ s = t := by
  constructor
  · intro h
    unfold Shape.text at h
    simp only [String.reduceToList, List.cons_append, List.nil_append, List.append_assoc, List.cons.injEq, true_and] at h
    obtain ⟨h1, _, h2⟩ := split_decimal angle_other angle_other h
    simp only [List.cons.injEq, true_and] at h2
    exact joinDims_injective (by exact_mod_cast h1) h2
  · rintro rfl; rfl

/-! ### Concrete cases (absl/absl_test.cpp) -/

example : Shape.text [⟨0, 10, 1⟩, ⟨67, 5, -10⟩, ⟨-11, 103, unresolved⟩] =
    "shape<3>(dim(0, 10, 1), dim(67, 5, -10), dim(-11, 103))".toList := by decide +kernel
example : Shape.text [⟨0, 10, 1⟩, ⟨67, 5, -10⟩, ⟨-11, 103, 50⟩] =
    "shape<3>(dim(0, 10, 1), dim(67, 5, -10), dim(-11, 103, 50))".toList := by decide +kernel
example : Shape.text [] = "shape<0>()".toList ∧ Interval.text ⟨-3, 5⟩ = "[-3, 2)".toList := by decide +kernel

end Nda
