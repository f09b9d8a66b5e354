import Verif.Lemmas.RelativeError
import Verif.Lemmas.BlockSums
import Verif.Lemmas.Benchmark
import Verif.Props.MatrixZOrder
import Verif.Props.Layouts
/-
Lemmas on the matrix program (C93).
-/
namespace Nda
open Spec
variable {F : Type}

/-- `generate` with a sequence of numbers. -/
theorem generateRandom_spec (a : ArrayRef) (b : Int) (hb : a.base = some b) (hn : NonNeg a.shape) (random : Nat → F)
    (n : Nat) (m : Mem F) :
    (∀ i, InBox a.shape i → ∃ k, (generateRandom a random n m).2 (b + offsetOf a.shape i) = random k) ∧
    ∀ x, (∀ i, InBox a.shape i → x ≠ b + offsetOf a.shape i) → (generateRandom a random n m).2 x = m x := by
  have key : ∀ (tr : List Int) (st : Nat × Mem F),
      (∀ x ∈ tr, ∃ k, (tr.foldl (fun st a => let r := (fun n => (random n, n + 1)) st.1; (r.2, st.2.set a r.1)) st).2 x =
        random k) ∧
      ∀ x, x ∉ tr → (tr.foldl (fun st a => let r := (fun n => (random n, n + 1)) st.1; (r.2, st.2.set a r.1)) st).2 x =
        st.2 x := by
    intro tr
    induction tr with
    | nil => intro st; exact ⟨by simp, fun _ _ => rfl⟩
    | cons a tr ih =>
      intro st
      simp only [List.foldl_cons]
      obtain ⟨h1, h2⟩ := ih (st.1 + 1, st.2.set a (random st.1))
      refine ⟨fun x hx => ?_, fun x hx => ?_⟩
      · by_cases hxt : x ∈ tr
        · exact h1 x hxt
        · rcases List.mem_cons.1 hx with rfl | hx
          · refine ⟨st.1, (h2 x hxt).trans ?_⟩
            simp [Mem.set]
          · exact absurd hx hxt
      · rw [List.mem_cons, not_or] at hx
        refine (h2 x hx.2).trans ?_
        simp [Mem.set, hx.1]
  obtain ⟨h1, h2⟩ := key a.forEachValue (n, m)
  obtain ⟨-, hmem⟩ := C14_calls a b hb hn
  refine ⟨fun i hi => h1 _ ((hmem _).2 ⟨i, hi, rfl⟩), fun x hx => h2 x fun hx' => ?_⟩
  obtain ⟨i, hi, e⟩ := (hmem _).1 hx'
  exact hx i hi e

theorem matrixAt_eq (p : Int) {rows cols : Int} (hr : 1 ≤ rows) (hc : 1 ≤ cols)
    (hfit : rows * cols ≤ 9223372036854775807) : matrixAt p rows cols = denseMatrix p rows cols := by
  obtain ⟨-, e, -⟩ := C67_matrix dynamic dynamic 0 0 rows cols (Or.inr rfl) (Or.inr rfl) hr hc hfit
  unfold matrixAt
  rw [e]
  have : Shape.flatMin [⟨0, rows, cols⟩, ⟨0, cols, 1⟩] = 0 := by
    have h1 : imin 0 cols = 0 := by unfold imin; split <;> omega
    have h2 : imin 0 1 = 0 := by decide
    simp [Shape.flatMin, sum, h1, h2]
  dsimp only
  rw [this, sub_zero]
  rfl

/-- Running an operation several times. -/
theorem repeat_spec {op : Mem F → Option (Mem F)} {P : Mem F → Mem F → Prop} (h : ∀ m, ∃ m', op m = some m' ∧ P m m')
    (htrans : ∀ m m₁ m₂, P m m₁ → P m₁ m₂ → P m m₂) :
    ∀ n m, 1 ≤ n → ∃ m', repeatOp op n m = some m' ∧ P m m'
  | 0, _, hn => absurd hn (by omega)
  | n + 1, m, _ => by
    obtain ⟨m1, e1, p1⟩ := h m
    show ∃ m', (op m).bind (repeatOp op n) = some m' ∧ _
    rw [e1]
    rcases Nat.eq_zero_or_pos n with rfl | hn
    · exact ⟨m1, rfl, p1⟩
    · obtain ⟨m2, e2, p2⟩ := repeat_spec h htrans n m1 hn
      exact ⟨m2, e2, htrans _ _ _ p1 p2⟩

/-- The blocks that the program reads. -/
def Inputs (run : MatrixRun) (M K N p : Int) : Prop :=
  (run.a ≤ p ∧ p < run.a + M * K) ∨ (run.b ≤ p ∧ p < run.b + K * N)

/-- One run of a version: the elements of `C` are `Val`, nothing else but the buffer changes. -/
def RunsTo (Val : Mem F → Int → Int → F) (M N c buf : Int) (m m' : Mem F) : Prop :=
  (∀ i j, 0 ≤ i → i < M → 0 ≤ j → j < N → m' (c + i * N + j) = Val m i j) ∧
  ∀ p, ¬ (c ≤ p ∧ p < c + M * N) → ¬ (buf ≤ p ∧ p < buf + 96) → m' p = m p

/-- Values that depend on the inputs only. -/
def OfInputs (run : MatrixRun) (M K N : Int) (Val : Mem F → Int → Int → F) : Prop :=
  ∀ m m' : Mem F, (∀ p, Inputs run M K N p → m' p = m p) → ∀ i j, 0 ≤ i → i < M → 0 ≤ j → j < N → Val m' i j = Val m i j

theorem dense_at {p M N i j : Int} (hi : 0 ≤ i) (hi' : i < M) (hj : 0 ≤ j) (hj' : j < N) :
    (denseMatrix p M N).at_ i j = some (p + i * N + j) := by
  rw [Image2.at_eq (b := p) rfl (show inDim (denseMatrix p M N).i i from ⟨hi, by show i < 0 + M; omega⟩)
    (show inDim (denseMatrix p M N).j j from ⟨hj, by show j < 0 + N; omega⟩)]
  simp [elementAddress, denseMatrix]

theorem agrees_of {o : KernelOps F} {M N r c : Int} {m : Mem F} (hM : 0 ≤ M) (hN : 0 ≤ N)
    (h : ∀ i j, 0 ≤ i → i < M → 0 ≤ j → j < N → exceeds o (1 / 10000) (m (r + i * N + j)) (m (c + i * N + j)) = false) :
    matrixAgrees o M N (denseMatrix r M N) (denseMatrix c M N) m = some true := by
  have hfold : ∀ {σ : Type} (s : σ) (l : List Int) (f : σ → Int → Option σ), (∀ x ∈ l, f s x = some s) →
      l.foldlM f s = some s := by
    intro σ s l f hf
    induction l with
    | nil => rfl
    | cons a l ih =>
      rw [List.foldlM_cons, hf a (by simp)]
      exact ih fun x hx => hf x (List.mem_cons_of_mem _ hx)
  unfold matrixAgrees
  rw [forRange_eq hM]
  refine hfold _ _ _ fun i hi => ?_
  rw [forRange_eq hN]
  refine hfold _ _ _ fun j hj => ?_
  have hi := mem_ints.1 hi
  have hj := mem_ints.1 hj
  dsimp only at hi hj
  rw [dense_at hi.1 (by omega) hj.1 (by omega), dense_at hi.1 (by omega) hj.1 (by omega)]
  show some (true && !exceeds o (1 / 10000) _ _) = some true
  rw [h i j hi.1 (by omega) hj.1 (by omega)]
  rfl

/-- One iteration of the loop over the versions. -/
theorem version_run {o : KernelOps F} {run : MatrixRun} {M K N : Int} (hmem : MatrixMemory run M K N) (hM : 0 ≤ M)
    (hN : 0 ≤ N) (t : Nat) (hc : Measured (run.clock t)) {Val : Mem F → Int → Int → F} (hV : OfInputs run M K N Val)
    {op : Mem F → Option (Mem F)} (hop : ∀ m, ∃ m', op m = some m' ∧ RunsTo Val M N (run.c t) (run.buf t) m m')
    (m : Mem F) (hpass : ∀ i j, 0 ≤ i → i < M → 0 ≤ j → j < N →
      exceeds o (1 / 10000) (m (run.ref + i * N + j)) (Val m i j) = false) :
    ∃ time m', benchmark ieeeDouble op (run.clock t) m = some (time, m') ∧
      matrixAgrees o M N (denseMatrix run.ref M N) (denseMatrix (run.c t) M N) m' = some true ∧
      ∀ p, (Inputs run M K N p ∨ (run.ref ≤ p ∧ p < run.ref + M * N)) → m' p = m p := by
  obtain ⟨n, time, k, it, hT, -, hrun⟩ := benchmark_trials hc 10 0 1 (ieeeDouble.lit 0) (by omega) rfl le_rfl (by norm_num)
  have hkeep : ∀ {m m' : Mem F}, RunsTo Val M N (run.c t) (run.buf t) m m' →
      ∀ p, (Inputs run M K N p ∨ (run.ref ≤ p ∧ p < run.ref + M * N)) → m' p = m p := by
    intro m m' h p hp
    have h1 := hmem.ac t
    have h2 := hmem.bc t
    have h3 := hmem.rc t
    have h4 := hmem.aBuf t
    have h5 := hmem.bBuf t
    have h6 := hmem.rBuf t
    unfold BlocksApart at h1 h2 h3 h4 h5 h6
    unfold Inputs at hp
    exact h.2 p (by omega) (by omega)
  obtain ⟨m', e, hR⟩ := repeat_spec hop (fun m m₁ m₂ h₁ h₂ => ⟨fun i j hi hi' hj hj' => by
      rw [h₂.1 i j hi hi' hj hj']
      exact hV m m₁ (fun p hp => hkeep h₁ p (Or.inl hp)) i j hi hi' hj hj',
    fun p hp hp' => (h₂.2 p hp hp').trans (h₁.2 p hp hp')⟩) n m (by have := hT.least; omega)
  refine ⟨time, m', ?_, agrees_of hM hN fun i j hi hi' hj hj' => ?_, hkeep hR⟩
  · unfold benchmark
    rw [hrun op m, e]
    rfl
  · have hij := dense_index hi hi' hj hj'
    rw [hkeep hR (run.ref + i * N + j) (Or.inr ⟨by linarith [hij.1], by linarith [hij.2]⟩), hR.1 i j hi hi' hj hj']
    exact hpass i j hi hi' hj hj'

/-- `Σ_k A(i, k) * B(k, j)`, in order. -/
def inOrder (o : KernelOps F) (run : MatrixRun) (M K N : Int) (m : Mem F) (i j : Int) : F :=
  dotFrom o.scalar (denseMatrix run.a M K) (denseMatrix run.b K N) run.a run.b m ⟨0, K⟩ o.zero i j

/-- `Σ_k A(i, k) * B(k, j)`, in blocks of 256. -/
def inBlocks (o : KernelOps F) (run : MatrixRun) (M K N : Int) (m : Mem F) (i j : Int) : F :=
  (blocks 256 ⟨0, K⟩).tail.foldl (fun s ko => o.add s
      (dotFrom o.scalar (denseMatrix run.a M K) (denseMatrix run.b K N) run.a run.b m ko o.zero i j))
    (dotFrom o.scalar (denseMatrix run.a M K) (denseMatrix run.b K N) run.a run.b m ⟨0, min 256 K⟩ o.zero i j)

theorem dotFrom_inputs {o : KernelOps F} {run : MatrixRun} {M K N : Int} {m m' : Mem F}
    (h : ∀ p, Inputs run M K N p → m' p = m p) {i j : Int} (hi : 0 ≤ i) (hi' : i < M) (hj : 0 ≤ j) (hj' : j < N)
    (ks : Interval) (hks : ∀ k, InInterval ks k → 0 ≤ k ∧ k < K) (s : F) :
    dotFrom o.scalar (denseMatrix run.a M K) (denseMatrix run.b K N) run.a run.b m' ks s i j =
      dotFrom o.scalar (denseMatrix run.a M K) (denseMatrix run.b K N) run.a run.b m ks s i j := by
  unfold dotFrom
  have key : ∀ l : List Int, (∀ k ∈ l, 0 ≤ k ∧ k < K) → ∀ s, l.foldl (fun s k => o.scalar.add s (o.scalar.mul
      (m' (elementAddress (denseMatrix run.a M K) run.a i k)) (m' (elementAddress (denseMatrix run.b K N) run.b k j)))) s =
      l.foldl (fun s k => o.scalar.add s (o.scalar.mul
      (m (elementAddress (denseMatrix run.a M K) run.a i k)) (m (elementAddress (denseMatrix run.b K N) run.b k j)))) s := by
    intro l
    induction l with
    | nil => intro _ _; rfl
    | cons k l ih =>
      intro hl s
      obtain ⟨h0, h1⟩ := hl k (by simp)
      simp only [List.foldl_cons]
      have ha := dense_index hi hi' h0 h1
      have hb := dense_index h0 h1 hj hj'
      rw [h _ (Or.inl (by simp only [elementAddress, denseMatrix]; constructor <;> linarith [ha.1, ha.2])),
        h _ (Or.inr (by simp only [elementAddress, denseMatrix]; constructor <;> linarith [hb.1, hb.2]))]
      exact ih (fun x hx => hl x (List.mem_cons_of_mem _ hx)) _
  exact key _ (fun k hk => hks k (mem_ascending.1 hk)) s

theorem inOrder_inputs (o : KernelOps F) (run : MatrixRun) (M K N : Int) : OfInputs run M K N (inOrder o run M K N) :=
  fun _ _ h _ _ hi hi' hj hj' => dotFrom_inputs h hi hi' hj hj' _ (fun k hk => ⟨hk.1, by have := hk.2; simpa using this⟩) _

theorem inBlocks_inputs (o : KernelOps F) (run : MatrixRun) (M K N : Int) :
    OfInputs run M K N (inBlocks o run M K N) := by
  intro m m' h i j hi hi' hj hj'
  unfold inBlocks
  rw [dotFrom_inputs h hi hi' hj hj' ⟨0, min 256 K⟩ (fun k hk => ⟨hk.1, by
    have : k < 0 + min 256 K := hk.2
    omega⟩)]
  have key : ∀ l : List Interval, (∀ ko ∈ l, ∀ k, InInterval ko k → 0 ≤ k ∧ k < K) → ∀ s, l.foldl (fun s ko => o.add s
      (dotFrom o.scalar (denseMatrix run.a M K) (denseMatrix run.b K N) run.a run.b m' ko o.zero i j)) s =
      l.foldl (fun s ko => o.add s
      (dotFrom o.scalar (denseMatrix run.a M K) (denseMatrix run.b K N) run.a run.b m ko o.zero i j)) s := by
    intro l
    induction l with
    | nil => intro _ _; rfl
    | cons ko l ih =>
      intro hl s
      simp only [List.foldl_cons]
      rw [dotFrom_inputs h hi hi' hj hj' ko (hl ko (by simp))]
      exact ih (fun x hx => hl x (List.mem_cons_of_mem _ hx)) _
  refine key _ (fun ko hko k hk => ?_) _
  have h1 := dynPieces_mem (by norm_num : (0 : Int) < 256)
    (show ko ∈ dynPieces 256 0 K from List.mem_of_mem_tail hko)
  have h2 : ko.min ≤ k := hk.1
  have h3 : k < ko.min + ko.extent := hk.2
  omega

theorem runsTo_of_product {o : KernelOps F} {run : MatrixRun} {M K N c buf buf' n : Int} {m m' : Mem F}
    (hn : ∀ p, buf' ≤ p ∧ p < buf' + n → buf ≤ p ∧ p < buf + 96)
    (h : IsProduct o.scalar (denseMatrix run.a M K) (denseMatrix run.b K N) (denseMatrix c M N) run.a run.b c buf' n m m') :
    RunsTo (inOrder o run M K N) M N c buf m m' := by
  refine ⟨fun i j hi hi' hj hj' => ?_, fun p hp hp' => h.2 p (fun he => hp (denseMatrix_elements he)) fun he => hp' (hn p he)⟩
  have := h.1 i j ⟨hi, by show i < 0 + M; omega⟩ ⟨hj, by show j < 0 + N; omega⟩
  rw [show c + i * N + j = elementAddress (denseMatrix c M N) c i j by simp [elementAddress, denseMatrix], this]
  rfl

/-- All versions. -/
theorem versions_run {o : KernelOps F} {run : MatrixRun} {M K N : Int} (hmem : MatrixMemory run M K N) (hM : 1 ≤ M)
    (hK : 1 ≤ K) (hN : 1 ≤ N) (h4 : 4 ∣ M) (h24 : 24 ∣ N) (debug : Bool) (t : Nat)
    (fn : Int → Image2 → Image2 → Image2 → Mem F → Option (Mem F)) (hfn : fn ∈ matrixVersions o debug) :
    ∃ Val, (Val = inOrder o run M K N ∨ Val = inBlocks o run M K N) ∧ ∀ m, ∃ m',
      fn (run.buf t) (denseMatrix run.a M K) (denseMatrix run.b K N) (denseMatrix (run.c t) M N) m = some m' ∧
        RunsTo Val M N (run.c t) (run.buf t) m m' := by
  have hM4 : 4 ≤ M := Int.le_of_dvd (by omega) h4
  have hN24 : 24 ≤ N := Int.le_of_dvd (by omega) h24
  have hac := hmem.ac t
  have hbc := hmem.bc t
  have haB := hmem.aBuf t
  have hbB := hmem.bBuf t
  have hcB := hmem.cBuf t
  unfold BlocksApart at hac hbc haB hbB hcB
  have hmul : Multipliable (denseMatrix run.a M K) (denseMatrix run.b K N) (denseMatrix (run.c t) M N) run.a run.b (run.c t) :=
    denseMatrix_multipliable (by omega) (by omega) (by omega) (by intros; omega) (by intros; omega)
  have hbuf : BufferFree (denseMatrix run.a M K) (denseMatrix run.b K N) (denseMatrix (run.c t) M N) run.a run.b (run.c t)
      (run.buf t) (4 * 24) := by
    intro p h1 h2
    refine ⟨fun he => ?_, fun he => ?_, fun he => ?_⟩ <;> have := denseMatrix_elements he <;> omega
  have hr : Encloses (denseMatrix run.a M K).i (denseMatrix (run.c t) M N).i := ⟨le_rfl, le_rfl⟩
  have hc : Encloses (denseMatrix run.b K N).j (denseMatrix (run.c t) M N).j := ⟨le_rfl, le_rfl⟩
  have hs : (denseMatrix (run.c t) M N).i.val.stride ≠ 0 := by show N ≠ 0; omega
  have h0 : ∀ p : Int, 0 ≤ p ∧ p < 0 + 0 → run.buf t ≤ p ∧ p < run.buf t + 96 := by intro p; omega
  have h96 : ∀ p : Int, run.buf t ≤ p ∧ p < run.buf t + 4 * 24 → run.buf t ≤ p ∧ p < run.buf t + 96 := by intro p; omega
  have hsi : Splittable debug 4 (denseMatrix (run.c t) M N).i := Or.inl hM4
  have hsj : Splittable debug 24 (denseMatrix (run.c t) M N).j := Or.inl hN24
  have lift : ∀ {buf n : Int} {r : Mem F → Option (Mem F)},
      (∀ p, buf ≤ p ∧ p < buf + n → run.buf t ≤ p ∧ p < run.buf t + 96) →
      (∀ m, ∃ m', r m = some m' ∧ IsProduct o.scalar (denseMatrix run.a M K) (denseMatrix run.b K N)
        (denseMatrix (run.c t) M N) run.a run.b (run.c t) buf n m m') →
      ∀ m, ∃ m', r m = some m' ∧ RunsTo (inOrder o run M K N) M N (run.c t) (run.buf t) m m' := by
    intro buf n r hb hr m
    obtain ⟨m', e, h⟩ := hr m
    exact ⟨m', e, runsTo_of_product hb h⟩
  simp only [matrixVersions, List.mem_cons, List.not_mem_nil, or_false] at hfn
  rcases hfn with rfl | rfl | rfl | rfl | rfl | rfl | rfl | rfl | rfl
  · exact ⟨_, Or.inl rfl, lift h0 fun m => C52_reduce_cols _ _ _ _ _ _ _ m hmul⟩
  · exact ⟨_, Or.inl rfl, lift h0 fun m => C52_ein_reduce_cols _ _ _ _ _ _ _ m debug hmul hr hc hs⟩
  · exact ⟨_, Or.inl rfl, lift h0 fun m => C52_reduce_rows _ _ _ _ _ _ _ m hmul⟩
  · exact ⟨_, Or.inl rfl, lift h0 fun m => C52_ein_reduce_rows _ _ _ _ _ _ _ m debug hmul hr hc hs⟩
  · exact ⟨_, Or.inl rfl, lift h0 fun m => C52_reduce_matrix _ _ _ _ _ _ _ m hmul⟩
  · exact ⟨_, Or.inl rfl, lift h0 fun m => C52_ein_reduce_matrix _ _ _ _ _ _ _ m debug hmul hr hc hs⟩
  · exact ⟨_, Or.inl rfl, lift h96 fun m => C52_reduce_tiles _ _ _ _ _ _ _ m _ _ _ debug hmul (by norm_num) (by norm_num)
      hbuf hsi hsj⟩
  · exact ⟨_, Or.inl rfl, lift h96 fun m => C52_ein_reduce_tiles _ _ _ _ _ _ _ m _ _ _ debug hmul (by norm_num)
      (by norm_num) hbuf hsi hsj⟩
  · refine ⟨_, Or.inr rfl, fun m => ?_⟩
    obtain ⟨m', e, h1, h2⟩ := C53_z_order o.scalar (denseMatrix run.a M K) (denseMatrix run.b K N)
      (denseMatrix (run.c t) M N) run.a run.b (run.c t) m 4 24 (run.buf t) debug 256 hmul (by norm_num) (by norm_num)
      (by norm_num) hbuf hM4 hN24 (by show 0 < K; omega)
    refine ⟨m', e, fun i j hi hi' hj hj' => ?_, fun p hp hp' => h2 p (fun he => hp (denseMatrix_elements he))
      fun he => hp' (h96 p he)⟩
    have h := h1 i j ⟨hi, by show i < 0 + M; omega⟩ ⟨hj, by show j < 0 + N; omega⟩
    rw [tileCount_of_dvd (by norm_num) h4, tileCount_of_dvd (by norm_num) h24] at h
    rw [show run.c t + i * N + j = elementAddress (denseMatrix (run.c t) M N) (run.c t) i j by
      simp [elementAddress, denseMatrix], h]
    rfl

/-- The loop over the versions. -/
theorem runVersions_spec {o : KernelOps F} {run : MatrixRun} {M K N : Int} (hmem : MatrixMemory run M K N) (hM : 1 ≤ M)
    (hK : 1 ≤ K) (hN : 1 ≤ N) (h4 : 4 ∣ M) (h24 : 24 ∣ N) (hfit : M * N ≤ 9223372036854775807) (debug : Bool)
    (hclock : ∀ t, Measured (run.clock t)) :
    ∀ (l : List (Int → Image2 → Image2 → Image2 → Mem F → Option (Mem F))) (t : Nat) (m : Mem F),
      (∀ fn ∈ l, fn ∈ matrixVersions o debug) →
      (∀ Val, (Val = inOrder o run M K N ∨ Val = inBlocks o run M K N) → ∀ i j, 0 ≤ i → i < M → 0 ≤ j → j < N →
        exceeds o (1 / 10000) (m (run.ref + i * N + j)) (Val m i j) = false) →
      ∃ m', runVersions o ieeeDouble run (denseMatrix run.a M K) (denseMatrix run.b K N) (denseMatrix run.ref M N) M N l t m =
        some (0, m')
  | [], _, m, _, _ => ⟨m, rfl⟩
  | fn :: l, t, m, hl, hpass => by
    obtain ⟨Val, hVal, hop⟩ := versions_run hmem hM hK hN h4 h24 debug t fn (hl fn (by simp))
    have hV : ∀ Val, (Val = inOrder o run M K N ∨ Val = inBlocks o run M K N) → OfInputs run M K N Val := by
      rintro V (rfl | rfl)
      · exact inOrder_inputs o run M K N
      · exact inBlocks_inputs o run M K N
    obtain ⟨time, m', e, ha, hkeep⟩ := version_run hmem (by omega) (by omega) t (hclock t) (hV Val hVal) hop m (hpass Val hVal)
    obtain ⟨m'', e'⟩ := runVersions_spec hmem hM hK hN h4 h24 hfit debug hclock l (t + 1) m'
      (fun f hf => hl f (List.mem_cons_of_mem _ hf)) (fun V hV' i j hi hi' hj hj' => by
        have hij := dense_index hi hi' hj hj'
        rw [hkeep (run.ref + i * N + j) (Or.inr ⟨by linarith [hij.1], by linarith [hij.2]⟩),
          hV V hV' m m' (fun p hp => hkeep p (Or.inl hp)) i j hi hi' hj hj']
        exact hpass V hV' i j hi hi' hj hj')
    refine ⟨m'', ?_⟩
    unfold runVersions
    rw [matrixAt_eq _ hM hN hfit]
    dsimp only
    rw [e]
    show (matrixAgrees o M N (denseMatrix run.ref M N) (denseMatrix (run.c t) M N) m').bind _ = _
    rw [ha]
    exact e'

/-- The elements of a dense matrix after `generate`, and everything else. -/
theorem generate_dense (p : Int) {R C : Int} (hR : 0 ≤ R) (hC : 0 ≤ C) (random : Nat → F) (n : Nat) (m : Mem F) :
    (∀ i j, 0 ≤ i → i < R → 0 ≤ j → j < C → ∃ k,
      (generateRandom ⟨(denseMatrix p R C).base, values (denseMatrix p R C).dims⟩ random n m).2 (p + i * C + j) = random k) ∧
    ∀ x, ¬ (p ≤ x ∧ x < p + R * C) →
      (generateRandom ⟨(denseMatrix p R C).base, values (denseMatrix p R C).dims⟩ random n m).2 x = m x := by
  have hs : values (denseMatrix p R C).dims = [⟨0, R, C⟩, ⟨0, C, 1⟩] := rfl
  have hoff : ∀ i j, offsetOf [⟨0, R, C⟩, ⟨0, C, 1⟩] [i, j] = i * C + j := by
    intro i j
    simp [offsetOf]
  have hbox : ∀ l, InBox [⟨0, R, C⟩, ⟨0, C, 1⟩] l → ∃ i j, l = [i, j] ∧ 0 ≤ i ∧ i < R ∧ 0 ≤ j ∧ j < C := by
    intro l hl
    match l, hl with
    | [i, j], hl =>
      simp only [InBox] at hl
      refine ⟨i, j, rfl, ?_⟩
      omega
  have h := generateRandom_spec ⟨(denseMatrix p R C).base, values (denseMatrix p R C).dims⟩ p rfl (by
    rw [hs]
    intro d hd
    simp only [List.mem_cons, List.not_mem_nil, or_false] at hd
    rcases hd with rfl | rfl <;> assumption) random n m
  dsimp only at h
  rw [hs] at h ⊢
  refine ⟨fun i j hi hi' hj hj' => ?_, fun x hx => h.2 x fun l hl e => hx ?_⟩
  · obtain ⟨k, e⟩ := h.1 [i, j] (by simp only [InBox, and_true]; omega)
    refine ⟨k, ?_⟩
    rw [← e, hoff, add_assoc]
  · obtain ⟨i, j, rfl, hi, hi', hj, hj'⟩ := hbox l hl
    have := dense_index hi hi' hj hj'
    rw [hoff] at e
    omega

/-- The program ends with the status 0. -/
theorem matrixProgramOf_spec {run : MatrixRun} {M K N : Int} (hmem : MatrixMemory run M K N) (hM : 1 ≤ M)
    (hK : 1 ≤ K) (hK' : K ≤ 1536) (hN : 1 ≤ N) (h4 : 4 ∣ M) (h24 : 24 ∣ N) (hMN : M * N ≤ 9223372036854775807)
    (hMK : M * K ≤ 9223372036854775807) (hKN : K * N ≤ 9223372036854775807) (debug : Bool)
    (hclock : ∀ t, Measured (run.clock t)) (random : Nat → Ieee) (hrandom : ∀ n, UnitFloat (random n)) (m : Mem Ieee) :
    ∃ m', matrixProgramOf ieeeFloat ieeeDouble M K N debug random run m = some (0, m') := by
  have hab := hmem.ab
  have har := hmem.ar
  have hbr := hmem.br
  unfold BlocksApart at hab har hbr
  obtain ⟨ga, ga'⟩ := generate_dense run.a (by omega : (0 : Int) ≤ M) (by omega : (0 : Int) ≤ K) random 0 m
  unfold matrixProgramOf
  rw [matrixAt_eq _ hM hK hMK, matrixAt_eq _ hK hN hKN, matrixAt_eq _ hM hN hMN]
  dsimp only
  generalize generateRandom ⟨(denseMatrix run.a M K).base, values (denseMatrix run.a M K).dims⟩ random 0 m = r1 at ga ga' ⊢
  obtain ⟨gb, gb'⟩ := generate_dense run.b (by omega : (0 : Int) ≤ K) (by omega : (0 : Int) ≤ N) random r1.1 r1.2
  generalize (generateRandom ⟨(denseMatrix run.b K N).base, values (denseMatrix run.b K N).dims⟩ random r1.1 r1.2).2 = m2
    at gb gb' ⊢
  obtain ⟨m3, e3, p3⟩ := C52_ref ieeeFloat.scalar run.a run.b run.ref m2 M K N (by omega) (by omega) (by omega)
    (fun p _ _ => by omega) (fun p _ _ => by omega)
  obtain ⟨hv, hk⟩ := runsTo_of_product (buf := 0) (fun p hp => by omega) p3
  have hin : ∀ p, Inputs run M K N p → m3 p = m2 p := by
    intro p hp
    refine p3.2 p (fun he => ?_) (by omega)
    have := denseMatrix_elements he
    unfold Inputs at hp
    omega
  rw [e3]
  refine runVersions_spec hmem hM hK hN h4 h24 hMN debug hclock _ 0 m3 (fun _ h => h) ?_
  intro Val hVal i j hi hi' hj hj'
  have href : m3 (run.ref + i * N + j) = inOrder ieeeFloat run M K N m3 i j := by
    rw [hv i j hi hi' hj hj', inOrder_inputs ieeeFloat run M K N m2 m3 hin i j hi hi' hj hj']
  rw [href]
  rcases hVal with rfl | rfl
  · exact exceeds_self (by norm_num) (by norm_num) _
  · have hA : ∀ k, InInterval ⟨0, K⟩ k → UnitFloat (m3 (elementAddress (denseMatrix run.a M K) run.a i k)) := by
      intro k hk
      have hk0 : 0 ≤ k := hk.1
      have hk1 : k < 0 + K := hk.2
      have hd := dense_index hi hi' hk0 (by omega : k < K)
      have ea : elementAddress (denseMatrix run.a M K) run.a i k = run.a + i * K + k := by
        simp [elementAddress, denseMatrix]
      rw [ea, hin _ (Or.inl (by omega)), gb' _ (by omega)]
      obtain ⟨n, e⟩ := ga i k hi hi' hk0 (by omega)
      rw [e]
      exact hrandom n
    have hB : ∀ k, InInterval ⟨0, K⟩ k → UnitFloat (m3 (elementAddress (denseMatrix run.b K N) run.b k j)) := by
      intro k hk
      have hk0 : 0 ≤ k := hk.1
      have hk1 : k < 0 + K := hk.2
      have hd := dense_index hk0 (by omega : k < K) hj hj'
      have ea : elementAddress (denseMatrix run.b K N) run.b k j = run.b + k * N + j := by
        simp [elementAddress, denseMatrix]
      rw [ea, hin _ (Or.inr (by omega))]
      obtain ⟨n, e⟩ := gb k j hk0 (by omega) hj hj'
      rw [e]
      exact hrandom n
    obtain ⟨fc, fz, c0, hcz⟩ := ieeeScalar_rounds.block_sums (le_trans (by norm_num) largestFloat_ge)
      (fun k => ieeeFloat.mul (m3 (elementAddress (denseMatrix run.a M K) run.a i k))
        (m3 (elementAddress (denseMatrix run.b K N) run.b k j))) ⟨0, K⟩ (by show 0 < K; omega) hK'
      (fun k hk => unit_mul (hA k hk) (hB k hk))
    change IsFloat (inOrder ieeeFloat run M K N m3 i j).finite at fc
    change IsFloat (inBlocks ieeeFloat run M K N m3 i j).finite at fz
    change 0 ≤ (inOrder ieeeFloat run M K N m3 i j).value at c0
    change |(inOrder ieeeFloat run M K N m3 i j).value - (inBlocks ieeeFloat run M K N m3 i j).value| ≤
      92 / 1000000 * (inOrder ieeeFloat run M K N m3 i j).value at hcz
    have z0 : 0 ≤ (inBlocks ieeeFloat run M K N m3 i j).value := by
      have := abs_le.1 hcz
      linarith
    have key := (exceeds_near (τ := 1 / 10000) (by norm_num) (by norm_num) fc fz c0 z0).1
    by_contra hne
    rw [Bool.not_eq_false] at hne
    have h5 := key hne
    have h6 := le_max_left (inOrder ieeeFloat run M K N m3 i j).value (inBlocks ieeeFloat run M K N m3 i j).value
    linarith

end Nda
