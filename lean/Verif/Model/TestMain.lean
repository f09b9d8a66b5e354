/-
The program that runs the tests (test/main.cpp): which tests a filter selects, what is printed and the exit status.
C strings are lists of characters (the null character ends them and is not in the list).
-/
namespace Nda

/-- test/main.cpp:24-27: the loop over characters that are equal or `?`. -/
def skipEqual : List Char → List Char → List Char × List Char
  | c :: p, d :: str => if (c = d ∨ c = '?') ∧ c ≠ '*' then skipEqual p str else (c :: p, d :: str)
  | p, str => (p, str)

theorem skipEqual_length (p str : List Char) : (skipEqual p str).1.length ≤ p.length := by
  induction p generalizing str with
  | nil => simp [skipEqual]
  | cons c p ih =>
    cases str with
    | nil => simp [skipEqual]
    | cons d str =>
      rw [skipEqual]
      split
      · have := ih str
        simp only [List.length_cons]
        omega
      · simp

/-- What is left of a string, from its first character to its end, as `str++` goes through it (test/main.cpp:33-35). -/
def rests : List Char → List (List Char)
  | [] => [[]]
  | c :: str => (c :: str) :: rests str

/-- test/main.cpp:23-38 `wildcard_match`. -/
def wildcardMatch (p str : List Char) : Bool :=
  match h : skipEqual p str with
  | ([], str') => str'.isEmpty
  | (c :: p', str') => if c = '*' then (rests str').any (wildcardMatch p') || p'.isEmpty else false
termination_by p.length
decreasing_by
  rename_i s0 _
  have := skipEqual_length p s0
  rw [h] at this
  simp only [List.length_cons] at this
  omega

/-- How a test ends: without exception, or with an exception derived from `std::exception` (test/main.cpp:74-78); an `ASSERT`
that fails throws `std::runtime_error` (test/test.h:101-118). -/
inductive TestEnd
  | passed
  | failed (what : String)
deriving DecidableEq, Repr

/-- A test and what it does to the state of the program; `none` if it does not return (test/main.cpp:40-43, 49-53). -/
structure Test (σ : Type) where
  name : List Char
  body : σ → Option (σ × TestEnd)

/-- What is printed: a line for each test that is run, and the last line (test/main.cpp:72-82). -/
structure TestReport where
  lines : List (List Char × TestEnd)
  passed : Nat
  total : Nat
  skipped : Nat
deriving Repr

/-- test/main.cpp:67-80: the loop over the tests. -/
def runTests {σ : Type} (filter : List Char) : List (Test σ) → σ → TestReport → Option (σ × TestReport)
  | [], s, r => some (s, r)
  | t :: ts, s, r =>
    if wildcardMatch filter t.name then do
      let (s', e) ← t.body s
      runTests filter ts s' { r with
        lines := r.lines ++ [(t.name, e)], passed := if e = .passed then r.passed + 1 else r.passed, total := r.total + 1 }
    else runTests filter ts s r

/-- test/main.cpp:59-84 `main`: the report and the value returned. -/
def testMain {σ : Type} (args : List (List Char)) (tests : List (Test σ)) (s : σ) : Option (σ × TestReport × Int) := do
  let filter := args.headD ['*']
  let (s', r) ← runTests filter tests s ⟨[], 0, 0, 0⟩
  pure (s', { r with skipped := tests.length - r.total }, if r.passed < r.total then -1 else 0)

end Nda
