import Verif.Spec.TestMain
import Mathlib.Data.List.Forall2
import Mathlib.Data.List.Count
/-
C105: the program that runs the tests (test/main.cpp).
-/
namespace Nda
open Spec

private theorem matches_nil (s : List Char) : Matches [] s ↔ s = [] := by
  constructor
  · rintro ⟨parts, h, rfl⟩
    cases h
    rfl
  · rintro rfl
    exact ⟨[], .nil, rfl⟩

private theorem matches_cons (c : Char) (p s : List Char) :
    Matches (c :: p) s ↔ ∃ u v, StandsFor c u ∧ Matches p v ∧ u ++ v = s := by
  constructor
  · rintro ⟨parts, h, rfl⟩
    cases h with
    | cons h1 h2 => exact ⟨_, _, h1, ⟨_, h2, rfl⟩, rfl⟩
  · rintro ⟨u, v, h1, ⟨parts, h2, rfl⟩, rfl⟩
    exact ⟨u :: parts, .cons h1 h2, rfl⟩

private theorem mem_rests (s v : List Char) : v ∈ rests s ↔ ∃ u, u ++ v = s := by
  induction s generalizing v with
  | nil =>
    simp only [rests, List.mem_singleton]
    constructor
    · rintro rfl
      exact ⟨[], rfl⟩
    · rintro ⟨u, h⟩
      exact (List.append_eq_nil_iff.1 h).2
  | cons c s ih =>
    rw [rests, List.mem_cons, ih]
    constructor
    · rintro (rfl | ⟨u, rfl⟩)
      · exact ⟨[], rfl⟩
      · exact ⟨c :: u, rfl⟩
    · rintro ⟨u, h⟩
      cases u with
      | nil => exact .inl h
      | cons d u =>
        rw [List.cons_append, List.cons.injEq] at h
        exact .inr ⟨u, h.2⟩

private theorem skip_matches (p s : List Char) : Matches p s ↔ Matches (skipEqual p s).1 (skipEqual p s).2 := by
  induction p generalizing s with
  | nil => simp [skipEqual]
  | cons c p ih =>
    cases s with
    | nil => simp [skipEqual]
    | cons d s =>
      rw [skipEqual]
      split_ifs with h
      · rw [← ih, matches_cons]
        obtain ⟨h1, h2⟩ := h
        constructor
        · rintro ⟨u, v, hu, hv, e⟩
          unfold StandsFor at hu
          rw [if_neg h2] at hu
          have hlen : u.length = 1 := by
            split_ifs at hu
            · exact hu
            · rw [hu]; rfl
          obtain ⟨x, rfl⟩ := List.length_eq_one_iff.1 hlen
          rw [List.singleton_append, List.cons.injEq] at e
          exact e.2 ▸ hv
        · intro h
          refine ⟨[d], s, ?_, h, rfl⟩
          unfold StandsFor
          rw [if_neg h2]
          split_ifs with hq
          · rfl
          · rcases h1 with rfl | h1
            · rfl
            · exact absurd h1 hq
      · rfl

/-- After the loop: the pattern has ended, or there is a `*`, or the string has ended, or the characters are different. -/
private theorem skip_end (p s : List Char) {c : Char} {p' s' : List Char} (h : skipEqual p s = (c :: p', s')) (hc : c ≠ '*') :
    ¬ Matches (c :: p') s' := by
  induction p generalizing s with
  | nil => simp [skipEqual] at h
  | cons a p ih =>
    cases s with
    | nil =>
      simp only [skipEqual, Prod.mk.injEq, List.cons.injEq] at h
      obtain ⟨⟨rfl, rfl⟩, rfl⟩ := h
      rw [matches_cons]
      rintro ⟨u, v, hu, -, e⟩
      obtain ⟨rfl, rfl⟩ := List.append_eq_nil_iff.1 e
      unfold StandsFor at hu
      rw [if_neg hc] at hu
      split_ifs at hu
    | cons d s =>
      rw [skipEqual] at h
      split_ifs at h with h1
      · exact ih s h
      · simp only [Prod.mk.injEq, List.cons.injEq] at h
        obtain ⟨⟨rfl, rfl⟩, rfl⟩ := h
        rw [matches_cons]
        rintro ⟨u, v, hu, -, e⟩
        unfold StandsFor at hu
        rw [if_neg hc] at hu
        split_ifs at hu with hq
        · exact h1 ⟨.inr hq, hc⟩
        · subst hu
          rw [List.singleton_append, List.cons.injEq] at e
          exact h1 ⟨.inl e.1, hc⟩

/-- C105: `wildcard_match` finds exactly the strings that the pattern describes: `?` stands for one character, `*` for any number of
characters, any other character for itself. -/
theorem C105_match (p s : List Char) : wildcardMatch p s = true ↔ Matches p s := by
  rw [skip_matches]
  unfold wildcardMatch
  split
  · next s' h => rw [h, matches_nil, List.isEmpty_iff]
  · next c p' s' h =>
    rw [h]
    split_ifs with hc
    · subst hc
      rw [Bool.or_eq_true, List.any_eq_true, matches_cons]
      constructor
      · rintro (⟨v, hv, hm⟩ | he)
        · obtain ⟨u, e⟩ := (mem_rests s' v).1 hv
          exact ⟨u, v, by simp [StandsFor], (C105_match p' v).1 hm, e⟩
        · rw [List.isEmpty_iff] at he
          subst he
          exact ⟨s', [], by simp [StandsFor], (matches_nil _).2 rfl, by simp⟩
      · rintro ⟨u, v, -, hm, e⟩
        exact .inl ⟨v, (mem_rests s' v).2 ⟨u, e⟩, (C105_match p' v).2 hm⟩
    · simp only [false_iff]
      exact skip_end p s h hc
termination_by p.length
decreasing_by
  all_goals
    have := skipEqual_length p s
    simp_all only [List.length_cons]
    omega

example : Matches "shape_*e?".toList "shape_resolve1".toList ∧ ¬ Matches "a?".toList "a".toList := by
  rw [← C105_match, ← C105_match]
  decide +kernel

section
variable {σ : Type}

/-- The tests that the filter selects, in their order. -/
private theorem runTests_spec (filter : List Char) (ts : List (Test σ)) (s : σ) (r : TestReport) (es : List TestEnd) (s' : σ)
    (h : Runs (ts.filter fun t => wildcardMatch filter t.name) s es s') :
    runTests filter ts s r = some (s', ⟨r.lines ++ ((ts.filter fun t => wildcardMatch filter t.name).map Test.name).zip es,
      r.passed + es.count .passed, r.total + es.length, r.skipped⟩) := by
  induction ts generalizing s r es with
  | nil =>
    cases h
    simp [runTests]
  | cons t ts ih =>
    rw [runTests]
    by_cases ht : wildcardMatch filter t.name = true
    · rw [if_pos ht]
      rw [List.filter_cons_of_pos (p := fun t : Test σ => wildcardMatch filter t.name) ht] at h ⊢
      cases h with
      | @cons _ _ _ s1 _ e es hb hr =>
        rw [hb]
        simp only [Option.bind_eq_bind, Option.bind_some]
        rw [ih s1 _ es hr]
        simp only [List.map_cons, List.zip_cons_cons, List.append_assoc, List.singleton_append, List.length_cons,
          List.count_cons, Option.some.injEq, Prod.mk.injEq, true_and, TestReport.mk.injEq]
        refine ⟨?_, by omega, trivial⟩
        by_cases he : e = .passed
        · simp [he]; omega
        · simp [he]
    · rw [if_neg ht]
      rw [List.filter_cons_of_neg (p := fun t : Test σ => wildcardMatch filter t.name) ht] at h ⊢
      exact ih s r es h

private theorem runTests_runs (filter : List Char) (ts : List (Test σ)) (s : σ) (r : TestReport) (s' : σ) (r' : TestReport)
    (h : runTests filter ts s r = some (s', r')) :
    ∃ es, Runs (ts.filter fun t => wildcardMatch filter t.name) s es s' := by
  induction ts generalizing s r with
  | nil =>
    simp only [runTests, Option.some.injEq, Prod.mk.injEq] at h
    exact ⟨[], h.1 ▸ .nil s⟩
  | cons t ts ih =>
    rw [runTests] at h
    by_cases ht : wildcardMatch filter t.name = true
    · rw [if_pos ht] at h
      rw [List.filter_cons_of_pos (p := fun t : Test σ => wildcardMatch filter t.name) ht]
      cases hb : t.body s with
      | none => simp [hb] at h
      | some x =>
        obtain ⟨s1, e⟩ := x
        rw [hb] at h
        simp only [Option.bind_eq_bind, Option.bind_some] at h
        obtain ⟨es, hr⟩ := ih s1 _ h
        exact ⟨e :: es, .cons hb hr⟩
    · rw [if_neg ht] at h
      rw [List.filter_cons_of_neg (p := fun t : Test σ => wildcardMatch filter t.name) ht]
      exact ih s r h

/-- C105: the program ends exactly if the tests that the filter selects do, one after the other in the order in which they were
added; it prints how each of them ended, how many passed, how many were run and how many were not selected; it returns 0 exactly if
all tests that it ran passed. -/
theorem C105_main (filter : List Char) (tests : List (Test σ)) (s s' : σ) (r : TestReport) (ret : Int) :
    testMain [filter] tests s = some (s', r, ret) ↔
      ∃ (sel : List (Test σ)) (es : List TestEnd), sel.Sublist tests ∧ (∀ t, t ∈ sel ↔ t ∈ tests ∧ Matches filter t.name) ∧
        (∀ (p : Test σ → Bool), (∀ t, p t = true ↔ Matches filter t.name) → sel = tests.filter p) ∧
        Runs sel s es s' ∧ r.lines = (sel.map Test.name).zip es ∧ r.passed = es.count .passed ∧ r.total = sel.length ∧
        r.skipped + sel.length = tests.length ∧ ret = if ∀ e ∈ es, e = .passed then 0 else -1 := by
  have hlen : ∀ {sel : List (Test σ)} {s es s'}, Runs sel s es s' → es.length = sel.length := by
    intro sel s es s' h
    induction h with
    | nil => rfl
    | cons _ _ ih => simp [ih]
  have hcnt : ∀ es : List TestEnd, (es.count .passed < es.length) ↔ ¬ ∀ e ∈ es, e = .passed := by
    intro es
    have h1 : es.count .passed ≤ es.length := List.count_le_length
    have h2 : es.count .passed = es.length ↔ ∀ e ∈ es, e = TestEnd.passed := by
      rw [List.count_eq_length]
      exact ⟨fun h e he => (h e he).symm, fun h e he => (h e he).symm⟩
    rw [← h2]
    omega
  have key : ∀ es, Runs (tests.filter fun t => wildcardMatch filter t.name) s es s' → testMain [filter] tests s =
      some (s', ⟨((tests.filter fun t => wildcardMatch filter t.name).map Test.name).zip es, es.count .passed,
        (tests.filter fun t => wildcardMatch filter t.name).length,
        tests.length - (tests.filter fun t => wildcardMatch filter t.name).length⟩, if ∀ e ∈ es, e = .passed then 0 else -1) := by
    intro es h
    unfold testMain
    dsimp only [List.headD_cons]
    rw [runTests_spec filter tests s _ es s' h]
    simp only [Option.bind_eq_bind, Option.bind_some, List.nil_append, Nat.zero_add, hlen h, Option.pure_def,
      Option.some.injEq, Prod.mk.injEq, true_and]
    rw [← hlen h]
    by_cases ha : ∀ e ∈ es, e = .passed
    · rw [if_neg (by rw [hcnt]; simpa using ha), if_pos ha]
    · rw [if_pos (by rw [hcnt]; exact ha), if_neg ha]
  constructor
  · intro h
    obtain ⟨es, hr⟩ : ∃ es, Runs (tests.filter fun t => wildcardMatch filter t.name) s es s' := by
      unfold testMain at h
      dsimp only [List.headD_cons] at h
      cases e : runTests filter tests s ⟨[], 0, 0, 0⟩ with
      | none => simp [e] at h
      | some x =>
        obtain ⟨s1, r1⟩ := x
        simp only [e, Option.bind_eq_bind, Option.bind_some, Option.pure_def, Option.some.injEq, Prod.mk.injEq] at h
        obtain ⟨rfl, -⟩ := h
        exact runTests_runs filter tests s _ _ _ e
    rw [key es hr, Option.some.injEq, Prod.mk.injEq, Prod.mk.injEq] at h
    obtain ⟨-, rfl, rfl⟩ := h
    refine ⟨_, es, List.filter_sublist, fun t => ?_, fun p hp => ?_, hr, rfl, rfl, rfl, ?_, rfl⟩
    · rw [List.mem_filter, C105_match]
    · refine List.filter_congr fun t _ => ?_
      rw [Bool.eq_iff_iff, C105_match, hp]
    · have := List.length_filter_le (fun t : Test σ => wildcardMatch filter t.name) tests
      dsimp only
      omega
  · rintro ⟨sel, es, -, -, hsel, hr, h1, h2, h3, h4, rfl⟩
    obtain rfl := hsel (fun t => wildcardMatch filter t.name) fun t => C105_match _ _
    rw [key es hr]
    obtain ⟨l, p, t, k⟩ := r
    dsimp only at h1 h2 h3 h4
    subst h1 h2 h3
    congr 4
    omega

/-- C105: without argument all tests are run. -/
theorem C105_all (tests : List (Test σ)) (s : σ) :
    testMain [] tests s = testMain [['*']] tests s ∧ ∀ name, Matches ['*'] name :=
  ⟨rfl, fun name => ⟨[name], .cons (by simp [StandsFor]) .nil, by simp⟩⟩

/-- C105: the order of the tests, which depends on the order in which the files are linked, does not matter to the numbers and the
value returned if no test depends on what other tests did. -/
theorem C105_order (ending : Test σ → TestEnd) (filter : List Char) (tests tests' : List (Test σ)) (hp : tests.Perm tests') (s : σ)
    (h : ∀ t ∈ tests, t.body s = some (s, ending t)) :
    ∃ r r' ret, testMain [filter] tests s = some (s, r, ret) ∧ testMain [filter] tests' s = some (s, r', ret) ∧
      r.passed = r'.passed ∧ r.total = r'.total ∧ r.skipped = r'.skipped ∧ r.lines.Perm r'.lines := by
  have run : ∀ l : List (Test σ), (∀ t ∈ l, t.body s = some (s, ending t)) → Runs l s (l.map ending) s := by
    intro l hl
    induction l with
    | nil => exact .nil s
    | cons t l ih => exact .cons (hl t (by simp)) (ih fun t ht => hl t (by simp [ht]))
  have main : ∀ l : List (Test σ), (∀ t ∈ l, t.body s = some (s, ending t)) →
      ∃ r, testMain [filter] l s = some (s, r, if ∀ e ∈ (l.filter fun t => wildcardMatch filter t.name).map ending, e = .passed
          then 0 else -1) ∧
        r.passed = ((l.filter fun t => wildcardMatch filter t.name).map ending).count .passed ∧
        r.total = (l.filter fun t => wildcardMatch filter t.name).length ∧
        r.skipped + r.total = l.length ∧
        r.lines = ((l.filter fun t => wildcardMatch filter t.name).map fun t => (t.name, ending t)) := by
    intro l hl
    refine ⟨⟨((l.filter fun t => wildcardMatch filter t.name).map fun t => (t.name, ending t)),
      ((l.filter fun t => wildcardMatch filter t.name).map ending).count .passed,
      (l.filter fun t => wildcardMatch filter t.name).length,
      l.length - (l.filter fun t => wildcardMatch filter t.name).length⟩, ?_, rfl, rfl, ?_, rfl⟩
    · refine (C105_main filter l s s _ _).2 ⟨l.filter fun t => wildcardMatch filter t.name, _, List.filter_sublist, fun t => ?_,
        fun p hp => ?_, run _ fun t ht => hl t (List.mem_filter.1 ht).1, ?_, rfl, rfl, ?_, rfl⟩
      · rw [List.mem_filter, C105_match]
      · refine List.filter_congr fun t _ => ?_
        rw [Bool.eq_iff_iff, C105_match, hp]
      · simp only [List.zip_map', List.map_map]
      · have := List.length_filter_le (fun t : Test σ => wildcardMatch filter t.name) l
        dsimp only
        omega
    · have := List.length_filter_le (fun t : Test σ => wildcardMatch filter t.name) l
      dsimp only
      omega
  obtain ⟨r, e, p1, p2, p3, p4⟩ := main tests h
  obtain ⟨r', e', q1, q2, q3, q4⟩ := main tests' fun t ht => h t (hp.mem_iff.2 ht)
  have hf := hp.filter fun t : Test σ => wildcardMatch filter t.name
  have hall : (∀ e ∈ (tests'.filter fun t => wildcardMatch filter t.name).map ending, e = TestEnd.passed) ↔
      ∀ e ∈ (tests.filter fun t => wildcardMatch filter t.name).map ending, e = TestEnd.passed :=
    ⟨fun h e he => h e ((hf.map ending).mem_iff.1 he), fun h e he => h e ((hf.map ending).mem_iff.2 he)⟩
  refine ⟨r, r', _, e, ?_, ?_, ?_, ?_, ?_⟩
  · rw [e']
    congr 3
    by_cases ha : ∀ e ∈ (tests.filter fun t => wildcardMatch filter t.name).map ending, e = TestEnd.passed
    · rw [if_pos ha, if_pos (hall.2 ha)]
    · rw [if_neg ha, if_neg (fun h => ha (hall.1 h))]
  · rw [p1, q1, (hf.map ending).count_eq]
  · rw [p2, q2, hf.length_eq]
  · have := hf.length_eq
    have := hp.length_eq
    omega
  · rw [p4, q4]
    exact hf.map _

/-- C105, negative part: a filter that matches no test, for example with a typing error, gives success. -/
theorem C105_no_test_counterexample (filter : List Char) (tests : List (Test σ)) (s : σ)
    (h : ∀ t ∈ tests, ¬ Matches filter t.name) : testMain [filter] tests s = some (s, ⟨[], 0, 0, tests.length⟩, 0) :=
  (C105_main filter tests s s _ _).2 ⟨[], [], by simp, by simpa using h, fun p hp => by
    symm
    rw [List.filter_eq_nil_iff]
    exact fun t ht hpt => h t ht ((hp t).1 hpt), .nil s, rfl, rfl, rfl, rfl, by simp⟩

end

-- Three tests, of which the filter selects two and one fails.
example : (testMain ["copy*".toList] [⟨"copy".toList, fun n => some (n + 1, .passed)⟩, ⟨"move".toList, fun _ => none⟩,
    ⟨"copy_empty".toList, fun n => some (n + 1, if n = 1 then .failed "i=0" else .passed)⟩] 0).map
      (fun x => (x.1, x.2.1.passed, x.2.1.total, x.2.1.skipped, x.2.2)) = some (2, 1, 2, 1, -1) := by decide +kernel

end Nda
