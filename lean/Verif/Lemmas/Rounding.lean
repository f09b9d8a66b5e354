import Verif.Spec.Rounding
import Verif.Lemmas.MatrixZOrder
import Mathlib.Algebra.Order.Ring.Abs
import Mathlib.Algebra.BigOperators.Group.List.Lemmas
import Mathlib.Tactic.Linarith
import Mathlib.Tactic.Positivity
import Mathlib.Tactic.Ring
import Mathlib.Tactic.NormNum
/-
Lemmas on rounding errors of sums (C82).
-/
namespace Nda
open Spec
variable {F α : Type} {o : ScalarOps F} {Finite : F → Prop} {val : F → ℚ} {u η Ω : ℚ}

theorem sum_map_nonneg_abs (l : List α) (x : α → ℚ) : 0 ≤ (l.map fun k => |x k|).sum := by
  induction l with
  | nil => simp
  | cons a l ih => simp only [List.map_cons, List.sum_cons]; positivity

/-- A sum of perturbed values, added up with rounding. -/
theorem Spec.Rounds.sum (R : Rounds o Finite val u η Ω) (v : α → F) (x z e : α → ℚ) (l : List α) :
    ∀ (s : F) (x0 z0 e0 : ℚ), Finite s → |val s - x0| ≤ e0 → |x0| ≤ z0 →
      (∀ k ∈ l, Finite (v k) ∧ |val (v k) - x k| ≤ e k ∧ |x k| ≤ z k) →
      (1 + u) ^ l.length * (z0 + e0 + (l.map fun k => z k + e k).sum) ≤ Ω →
      Finite (l.foldl (fun s k => o.add s (v k)) s) ∧
      |val (l.foldl (fun s k => o.add s (v k)) s) - (x0 + (l.map x).sum)| ≤
        (1 + u) ^ l.length * (z0 + e0 + (l.map fun k => z k + e k).sum) - (z0 + (l.map z).sum) := by
  induction l with
  | nil =>
    intro s x0 z0 e0 hs h0 _ _ _
    refine ⟨hs, ?_⟩
    simp only [List.foldl_nil, List.map_nil, List.sum_nil, add_zero, List.length_nil, pow_zero, one_mul]
    linarith
  | cons a l ih =>
    intro s x0 z0 e0 hs h0 hz0 hv hΩ
    obtain ⟨ha, hae, hza⟩ := hv a (by simp)
    have hu := R.unit
    have he0 : 0 ≤ e0 := (abs_nonneg _).trans h0
    have hea : 0 ≤ e a := (abs_nonneg _).trans hae
    have hrest : 0 ≤ (l.map fun k => z k + e k).sum := by
      apply List.sum_nonneg
      intro y hy
      obtain ⟨k, hk, rfl⟩ := List.mem_map.1 hy
      have := (abs_nonneg _).trans (hv k (List.mem_cons_of_mem _ hk)).2.1
      have := (abs_nonneg _).trans (hv k (List.mem_cons_of_mem _ hk)).2.2
      linarith
    have hpow : (1 : ℚ) ≤ (1 + u) ^ l.length := one_le_pow₀ (by linarith)
    have hpow' : (1 : ℚ) ≤ (1 + u) ^ (l.length + 1) := one_le_pow₀ (by linarith)
    have hx0 := abs_nonneg x0
    have hxa := abs_nonneg (x a)
    simp only [List.map_cons, List.sum_cons, List.length_cons, List.foldl_cons] at hΩ ⊢
    have hsum : |val s + val (v a)| ≤ z0 + e0 + (z a + e a) := by
      have h1 := abs_sub_abs_le_abs_sub (val s) x0
      have h2 := abs_sub_abs_le_abs_sub (val (v a)) (x a)
      exact (abs_add_le _ _).trans (by linarith)
    have hle : z0 + e0 + (z a + e a) ≤ Ω := by
      refine le_trans ?_ hΩ
      have : 0 ≤ z0 + e0 + (z a + e a + (l.map fun k => z k + e k).sum) := by linarith
      nlinarith
    obtain ⟨hf, hadd⟩ := R.add s (v a) hs ha (hsum.trans hle)
    have h0' : |val (o.add s (v a)) - (x0 + x a)| ≤ (1 + u) * (z0 + e0 + (z a + e a)) - (z0 + z a) := by
      have e1 : val (o.add s (v a)) - (x0 + x a) =
          (val (o.add s (v a)) - (val s + val (v a))) + ((val s - x0) + (val (v a) - x a)) := by ring
      rw [e1]
      have h1 := abs_add_le (val (o.add s (v a)) - (val s + val (v a))) ((val s - x0) + (val (v a) - x a))
      have h2 := abs_add_le (val s - x0) (val (v a) - x a)
      have h3 := mul_le_mul_of_nonneg_left hsum hu
      linarith
    have hstep : (1 + u) ^ l.length * (z0 + z a + ((1 + u) * (z0 + e0 + (z a + e a)) - (z0 + z a)) +
        (l.map fun k => z k + e k).sum) ≤
        (1 + u) ^ (l.length + 1) * (z0 + e0 + (z a + e a + (l.map fun k => z k + e k).sum)) := by
      rw [pow_succ, mul_assoc]
      refine mul_le_mul_of_nonneg_left ?_ (by linarith)
      nlinarith
    have key := ih (o.add s (v a)) (x0 + x a) (z0 + z a) _ hf h0' ((abs_add_le _ _).trans (by linarith))
      (fun k hk => hv k (List.mem_cons_of_mem _ hk)) (hstep.trans hΩ)
    refine ⟨key.1, ?_⟩
    rw [← add_assoc]
    exact key.2.trans (by linarith)

/-- A sum of rounded products. -/
theorem Spec.Rounds.dot (R : Rounds o Finite val u η Ω) (f g : α → F) (l : List α) (s : F) (hs : Finite s)
    (hf : ∀ k ∈ l, Finite (f k)) (hg : ∀ k ∈ l, Finite (g k)) (size : ℚ)
    (hsize : size = (l.map fun k => |val (f k)| * |val (g k)|).sum)
    (hΩ : (1 + u) ^ l.length * |val s| + (size + productError u η l.length l.length size) ≤ Ω) :
    Finite (l.foldl (fun s k => o.add s (o.mul (f k) (g k))) s) ∧
    |val (l.foldl (fun s k => o.add s (o.mul (f k) (g k))) s) - (val s + (l.map fun k => val (f k) * val (g k)).sum)| ≤
      ((1 + u) ^ l.length - 1) * |val s| + productError u η l.length l.length size := by
  have hu := R.unit
  have hη := R.underflow
  have habs : (fun k => |val (f k)| * |val (g k)|) = fun k => |val (f k) * val (g k)| :=
    funext fun k => (abs_mul _ _).symm
  rw [habs] at hsize
  have hsize0 : 0 ≤ size := hsize ▸ sum_map_nonneg_abs l fun k => val (f k) * val (g k)
  have hpow : (1 : ℚ) ≤ (1 + u) ^ l.length := one_le_pow₀ (by linarith)
  have hpow' : (1 : ℚ) ≤ (1 + u) ^ (l.length + 1) := one_le_pow₀ (by linarith)
  have herr : 0 ≤ productError u η l.length l.length size := by
    unfold productError
    have : 0 ≤ ((1 + u) ^ (l.length + 1) - 1) * size := mul_nonneg (by linarith) hsize0
    positivity
  have hs0 : 0 ≤ (1 + u) ^ l.length * |val s| := by positivity
  have hsingle : ∀ k ∈ l, |val (f k) * val (g k)| ≤ size := by
    intro k hk
    rw [hsize]
    exact List.single_le_sum (by
      intro y hy
      obtain ⟨k, -, rfl⟩ := List.mem_map.1 hy
      exact abs_nonneg _) _ (List.mem_map_of_mem hk)
  have hterm : ∀ (l' : List α), (l'.map fun k => |val (f k) * val (g k)| + (u * |val (f k) * val (g k)| + η)).sum =
      (1 + u) * (l'.map fun k => |val (f k) * val (g k)|).sum + l'.length * η := by
    intro l'
    induction l' with
    | nil => simp
    | cons a l' ih =>
      simp only [List.map_cons, List.sum_cons, ih, List.length_cons]
      push_cast
      ring
  have hB : (1 + u) ^ l.length * (|val s| + 0 + (l.map fun k => |val (f k) * val (g k)| +
      (u * |val (f k) * val (g k)| + η)).sum) =
      (1 + u) ^ l.length * |val s| + (size + productError u η l.length l.length size) := by
    rw [hterm, ← hsize]
    unfold productError
    ring
  have key := R.sum (fun k => o.mul (f k) (g k)) (fun k => val (f k) * val (g k))
    (fun k => |val (f k) * val (g k)|) (fun k => u * |val (f k) * val (g k)| + η) l s (val s) |val s| 0 hs (by simp) le_rfl
    (fun k hk => by
      have h := R.mul _ _ (hf k hk) (hg k hk) ((hsingle k hk).trans (by linarith))
      exact ⟨h.1, h.2, le_rfl⟩) (hB.trans_le hΩ)
  refine ⟨key.1, key.2.trans ?_⟩
  rw [hB, ← hsize]
  linarith

theorem Spec.Rounds.productError_nonneg (R : Rounds o Finite val u η Ω) (t n : Nat) {size : ℚ} (h : 0 ≤ size) :
    0 ≤ productError u η t n size := by
  have hu := R.unit
  have hη := R.underflow
  unfold productError
  have hpow' : (1 : ℚ) ≤ (1 + u) ^ (n + 1) := one_le_pow₀ (by linarith)
  have : 0 ≤ ((1 + u) ^ (n + 1) - 1) * size := mul_nonneg (by linarith) h
  positivity

theorem sum_ascending (v : Interval) (x : Int → ℚ) : ((ascending v).map x).sum = ∑ k ∈ spanOf v, x k := by
  have hnd : (ascending v).Nodup :=
    List.nodup_range.map fun a b h => by simpa using h
  rw [← List.sum_toFinset _ hnd]
  refine Finset.sum_congr ?_ fun _ _ => rfl
  ext k
  simp only [List.mem_toFinset, ascending, List.mem_map, List.mem_range, spanOf, Finset.mem_Ico]
  constructor
  · rintro ⟨t, ht, rfl⟩; omega
  · intro h; exact ⟨(k - v.min).toNat, by omega, by omega⟩

theorem mem_ascending {v : Interval} {k : Int} : k ∈ ascending v ↔ InInterval v k := by
  simp only [ascending, List.mem_map, List.mem_range]
  constructor
  · rintro ⟨t, ht, rfl⟩
    show _ ∧ _
    omega
  · rintro ⟨h1, h2⟩; exact ⟨(k - v.min).toNat, by omega, by omega⟩

theorem length_ascending (v : Interval) : (ascending v).length = v.extent.toNat := by
  simp [ascending]

theorem foldl_add_eq_sum (l : List α) (x : α → ℚ) (s : ℚ) : l.foldl (fun s k => s + x k) s = s + (l.map x).sum := by
  induction l generalizing s with
  | nil => simp
  | cons a l ih => rw [List.foldl_cons, ih, List.map_cons, List.sum_cons, add_assoc]

theorem sum_blocks (x : Int → ℚ) (v : Interval) {n : Int} (hn : 0 < n) (hv : 0 ≤ v.extent) :
    ((blocks n v).map fun ko => ((ascending ko).map x).sum).sum = ((ascending v).map x).sum := by
  have h := foldl_blocks (o := (⟨0, fun a b => a + b, fun a b => a * b, fun a b => decide (a < b)⟩ : ScalarOps ℚ)) (g := x)
    (fun a b c => add_assoc a b c) (fun a => add_zero a) hn v.extent.toNat v.min v.extent 0 hv le_rfl
  simp only [foldl_add_eq_sum, zero_add] at h
  exact h

theorem sum_flatMap_map {β : Type} (l : List α) (f : α → List β) (x : β → ℚ) :
    ((l.flatMap f).map x).sum = (l.map fun k => ((f k).map x).sum).sum := by
  induction l with
  | nil => rfl
  | cons a l ih => simp only [List.flatMap_cons, List.map_append, List.sum_append, ih, List.map_cons, List.sum_cons]

/-- The products of a product of matrices are the products of rounded values. -/
theorem Spec.Rounds.dotFrom (R : Rounds o Finite val u η Ω) {A B : Image2} {a b : Int} {m : Int → F} {i j : Int}
    {ks : Interval} (hA : ∀ k, InInterval ks k → Finite (m (elementAddress A a i k)))
    (hB : ∀ k, InInterval ks k → Finite (m (elementAddress B b k j))) {size : ℚ}
    (hsize : size = ((ascending ks).map fun k =>
      |val (m (elementAddress A a i k))| * |val (m (elementAddress B b k j))|).sum)
    (hΩ : size + productError u η ks.extent.toNat ks.extent.toNat size ≤ Ω) :
    Finite (Spec.dotFrom o A B a b m ks o.zero i j) ∧
    |val (Spec.dotFrom o A B a b m ks o.zero i j) - ((ascending ks).map fun k =>
      val (m (elementAddress A a i k)) * val (m (elementAddress B b k j))).sum| ≤
      productError u η ks.extent.toNat ks.extent.toNat size := by
  have h := R.dot (fun k => m (elementAddress A a i k)) (fun k => m (elementAddress B b k j)) (ascending ks) o.zero
    R.zero.1 (fun k hk => hA k (mem_ascending.1 hk)) (fun k hk => hB k (mem_ascending.1 hk)) size hsize (by
      rw [R.zero.2, length_ascending]; simpa using hΩ)
  rw [R.zero.2, length_ascending, abs_zero, mul_zero, zero_add, zero_add] at h
  exact h

theorem Spec.Rounds.productError_mono (R : Rounds o Finite val u η Ω) (t : Nat) {n n' : Nat} (hn : n ≤ n') {size : ℚ}
    (h : 0 ≤ size) : productError u η t n size ≤ productError u η t n' size := by
  have hu := R.unit
  have hη := R.underflow
  unfold productError
  have h1 : (1 + u) ^ (n + 1) ≤ (1 + u) ^ (n' + 1) := pow_le_pow_right₀ (by linarith) (by omega)
  have h2 : (1 + u) ^ n ≤ (1 + u) ^ n' := pow_le_pow_right₀ (by linarith) hn
  have h3 := mul_le_mul_of_nonneg_right h1 h
  have h4 : (t : ℚ) * η * (1 + u) ^ n ≤ t * η * (1 + u) ^ n' := mul_le_mul_of_nonneg_left h2 (by positivity)
  linarith

theorem abs_sum_map_le (l : List α) (x z : α → ℚ) (h : ∀ k ∈ l, |x k| ≤ z k) : |(l.map x).sum| ≤ (l.map z).sum := by
  induction l with
  | nil => simp
  | cons a l ih =>
    simp only [List.map_cons, List.sum_cons]
    have h1 := h a (by simp)
    have h2 := ih fun k hk => h k (List.mem_cons_of_mem _ hk)
    exact (abs_add_le _ _).trans (by linarith)

/-- Any way of adding up products. -/
theorem Spec.Rounds.tree (R : Rounds o Finite val u η Ω) {fma : F → F → F → F} (hfma : RoundsFma fma Finite val u η Ω)
    (f g : α → F) (t : SumTree α) : ∀ n, t.depth ≤ n → (∀ k ∈ t.terms, Finite (f k) ∧ Finite (g k)) → ∀ size : ℚ,
      size = (t.terms.map fun k => |val (f k) * val (g k)|).sum →
      size + productError u η t.terms.length n size ≤ Ω →
      Finite (t.eval o fma f g) ∧
      |val (t.eval o fma f g) - (t.terms.map fun k => val (f k) * val (g k)).sum| ≤
        productError u η t.terms.length n size := by
  have hu := R.unit
  have hη := R.underflow
  have hbound : ∀ (l : List α) (size : ℚ), size = (l.map fun k => |val (f k) * val (g k)|).sum →
      0 ≤ size ∧ |(l.map fun k => val (f k) * val (g k)).sum| ≤ size := by
    intro l size h
    exact ⟨h ▸ sum_map_nonneg_abs l _, h ▸ abs_sum_map_le l _ _ fun _ _ => le_rfl⟩
  induction t with
  | zero =>
    intro n _ _ size hsize hΩ
    have : size = 0 := by simpa [SumTree.terms] using hsize
    subst this
    refine ⟨R.zero.1, ?_⟩
    show |val o.zero - ([].map _).sum| ≤ _
    rw [R.zero.2]
    simp only [List.map_nil, List.sum_nil, sub_self, abs_zero]
    exact R.productError_nonneg _ _ le_rfl
  | term k =>
    intro n _ hf size hsize hΩ
    have hsize : size = |val (f k) * val (g k)| := by simpa [SumTree.terms] using hsize
    obtain ⟨h1, h2⟩ := hf k (by simp [SumTree.terms])
    have hs0 : 0 ≤ size := hsize ▸ abs_nonneg _
    have h3 := R.productError_nonneg (SumTree.term k).terms.length n hs0
    obtain ⟨h4, h5⟩ := R.mul _ _ h1 h2 (by linarith)
    refine ⟨h4, ?_⟩
    show |val (o.mul (f k) (g k)) - ([k].map _).sum| ≤ _
    simp only [List.map_cons, List.map_nil, List.sum_cons, List.sum_nil, add_zero]
    refine h5.trans ?_
    rw [← hsize]
    unfold productError
    have h6 : (1 : ℚ) ≤ (1 + u) ^ n := one_le_pow₀ (by linarith)
    have h7 : 1 + u ≤ (1 + u) ^ (n + 1) := by
      rw [pow_succ]
      nlinarith
    have h8 : u * size ≤ ((1 + u) ^ (n + 1) - 1) * size := mul_le_mul_of_nonneg_right (by linarith) hs0
    have h9 : η * 1 ≤ η * (1 + u) ^ n := mul_le_mul_of_nonneg_left h6 hη
    show _ ≤ _ + ((1 : Nat) : ℚ) * η * _
    push_cast
    linarith
  | add l r ihl ihr =>
    intro n hn hf size hsize hΩ
    obtain ⟨n, rfl⟩ : ∃ n', n = n' + 1 := ⟨n - 1, by simp only [SumTree.depth] at hn; omega⟩
    simp only [SumTree.depth] at hn
    simp only [SumTree.terms, List.map_append, List.sum_append, List.length_append] at hsize hΩ ⊢
    set sl := (l.terms.map fun k => |val (f k) * val (g k)|).sum with hsl
    set sr := (r.terms.map fun k => |val (f k) * val (g k)|).sum with hsr
    obtain ⟨hl0, hl1⟩ := hbound l.terms sl rfl
    obtain ⟨hr0, hr1⟩ := hbound r.terms sr rfl
    have hB : size + productError u η (l.terms.length + r.terms.length) (n + 1) size =
        (1 + u) * ((sl + productError u η l.terms.length n sl) + (sr + productError u η r.terms.length n sr)) := by
      rw [hsize]
      unfold productError
      push_cast
      ring
    have hel := R.productError_nonneg l.terms.length n hl0
    have her := R.productError_nonneg r.terms.length n hr0
    have hboth : (sl + productError u η l.terms.length n sl) + (sr + productError u η r.terms.length n sr) ≤ Ω := by
      rw [hB] at hΩ
      nlinarith
    obtain ⟨fl, el⟩ := ihl n (by omega) (fun k hk => hf k (List.mem_append_left _ hk)) sl rfl (by linarith)
    obtain ⟨fr, er⟩ := ihr n (by omega) (fun k hk => hf k (List.mem_append_right _ hk)) sr rfl (by linarith)
    have hsum : |val (l.eval o fma f g) + val (r.eval o fma f g)| ≤
        (sl + productError u η l.terms.length n sl) + (sr + productError u η r.terms.length n sr) := by
      have h1 := abs_sub_abs_le_abs_sub (val (l.eval o fma f g)) (l.terms.map fun k => val (f k) * val (g k)).sum
      have h2 := abs_sub_abs_le_abs_sub (val (r.eval o fma f g)) (r.terms.map fun k => val (f k) * val (g k)).sum
      exact (abs_add_le _ _).trans (by linarith)
    obtain ⟨ft, et⟩ := R.add _ _ fl fr (hsum.trans hboth)
    refine ⟨ft, ?_⟩
    show |val (o.add (l.eval o fma f g) (r.eval o fma f g)) - _| ≤ _
    set xl := (l.terms.map fun k => val (f k) * val (g k)).sum
    set xr := (r.terms.map fun k => val (f k) * val (g k)).sum
    have e1 : val (o.add (l.eval o fma f g) (r.eval o fma f g)) - (xl + xr) =
        (val (o.add (l.eval o fma f g) (r.eval o fma f g)) - (val (l.eval o fma f g) + val (r.eval o fma f g))) +
        ((val (l.eval o fma f g) - xl) + (val (r.eval o fma f g) - xr)) := by ring
    rw [e1]
    have h1 := abs_add_le (val (o.add (l.eval o fma f g) (r.eval o fma f g)) -
      (val (l.eval o fma f g) + val (r.eval o fma f g))) ((val (l.eval o fma f g) - xl) + (val (r.eval o fma f g) - xr))
    have h2 := abs_add_le (val (l.eval o fma f g) - xl) (val (r.eval o fma f g) - xr)
    have h3 := mul_le_mul_of_nonneg_left hsum hu
    linarith
  | fma k l ih =>
    intro n hn hf size hsize hΩ
    obtain ⟨n, rfl⟩ : ∃ n', n = n' + 1 := ⟨n - 1, by simp only [SumTree.depth] at hn; omega⟩
    simp only [SumTree.depth] at hn
    simp only [SumTree.terms, List.map_cons, List.sum_cons, List.length_cons] at hsize hΩ ⊢
    set sl := (l.terms.map fun k => |val (f k) * val (g k)|).sum with hsl
    obtain ⟨hl0, hl1⟩ := hbound l.terms sl rfl
    set p := val (f k) * val (g k) with hp
    have hp0 := abs_nonneg p
    have hpow : (1 : ℚ) ≤ (1 + u) ^ (n + 1) := one_le_pow₀ (by linarith)
    have hB : size + productError u η (l.terms.length + 1) (n + 1) size =
        (1 + u) * (sl + productError u η l.terms.length n sl) + (1 + u) ^ (n + 1 + 1) * |p| + η * (1 + u) ^ (n + 1) := by
      rw [hsize]
      unfold productError
      push_cast
      ring
    have h2 : (1 + u) * |p| ≤ (1 + u) ^ (n + 1 + 1) * |p| := by
      refine mul_le_mul_of_nonneg_right ?_ hp0
      rw [pow_succ]
      nlinarith
    have h3 : η * 1 ≤ η * (1 + u) ^ (n + 1) := mul_le_mul_of_nonneg_left hpow hη
    have hel := R.productError_nonneg l.terms.length n hl0
    have hboth : |p| + (sl + productError u η l.terms.length n sl) ≤ Ω := by
      rw [hB] at hΩ
      nlinarith
    obtain ⟨fl, el⟩ := ih n (by omega) (fun k hk => hf k (List.mem_cons_of_mem _ hk)) sl rfl (by linarith)
    obtain ⟨f1, f2⟩ := hf k (by simp [SumTree.terms])
    have hsum : |p + val (l.eval o fma f g)| ≤ |p| + (sl + productError u η l.terms.length n sl) := by
      have h1 := abs_sub_abs_le_abs_sub (val (l.eval o fma f g)) (l.terms.map fun k => val (f k) * val (g k)).sum
      exact (abs_add_le _ _).trans (by linarith)
    obtain ⟨ft, et⟩ := hfma (f k) (g k) (l.eval o fma f g) f1 f2 fl (hsum.trans hboth)
    refine ⟨ft, ?_⟩
    show |val (fma (f k) (g k) (l.eval o fma f g)) - _| ≤ _
    rw [← hp] at et
    set xl := (l.terms.map fun k => val (f k) * val (g k)).sum
    have e1 : val (fma (f k) (g k) (l.eval o fma f g)) - (p + xl) =
        (val (fma (f k) (g k) (l.eval o fma f g)) - (p + val (l.eval o fma f g))) +
        (val (l.eval o fma f g) - xl) := by ring
    rw [e1]
    have h1 := abs_add_le (val (fma (f k) (g k) (l.eval o fma f g)) - (p + val (l.eval o fma f g)))
      (val (l.eval o fma f g) - xl)
    have h4 := mul_le_mul_of_nonneg_left hsum hu
    linarith

/-! ### Arithmetics -/

theorem nearest_error (p : Nat) (x : ℚ) : |nearest p x - x| ≤ (2 : ℚ)⁻¹ ^ p * |x| := by
  unfold nearest
  set s : ℚ := (2 : ℚ) ^ (Int.log 2 |x| + 1 - p) with hs
  have hs0 : 0 < s := zpow_pos (by norm_num) _
  have h1 := abs_sub_round (x / s)
  have h2 : (round (x / s) : ℚ) * s - x = -((x / s - round (x / s)) * s) := by
    rw [sub_mul, div_mul_cancel₀ _ hs0.ne']
    ring
  rw [h2, abs_neg, abs_mul, abs_of_pos hs0]
  by_cases hx : x = 0
  · simp [hx]
  · have hlog : (2 : ℚ) ^ Int.log 2 |x| ≤ |x| := by
      have := Int.zpow_log_le_self (b := 2) (r := |x|) (by norm_num) (abs_pos.2 hx)
      exact_mod_cast this
    have e : s = 2 * ((2 : ℚ)⁻¹ ^ p * (2 : ℚ) ^ Int.log 2 |x|) := by
      rw [hs, zpow_sub₀ (by norm_num), zpow_add₀ (by norm_num), zpow_one, zpow_natCast, inv_pow]
      ring
    have h3 : |x / s - round (x / s)| * s ≤ 1 / 2 * s := mul_le_mul_of_nonneg_right h1 hs0.le
    refine h3.trans ?_
    rw [e]
    have h4 : (2 : ℚ)⁻¹ ^ p * (2 : ℚ) ^ Int.log 2 |x| ≤ (2 : ℚ)⁻¹ ^ p * |x| :=
      mul_le_mul_of_nonneg_left hlog (by positivity)
    linarith

theorem nearest_int {p : Nat} (hp : 0 < p) (n : Int) (hn : |n| ≤ 2 ^ p) : nearest p n = n := by
  unfold nearest
  set e := Int.log 2 |(n : ℚ)| with he
  have hs0 : (0 : ℚ) < (2 : ℚ) ^ (e + 1 - p) := zpow_pos (by norm_num) _
  suffices h : ∃ q : Int, (n : ℚ) / (2 : ℚ) ^ (e + 1 - p) = q by
    obtain ⟨q, hq⟩ := h
    rw [hq, round_intCast, ← hq, div_mul_cancel₀ _ hs0.ne']
  by_cases h0 : n = 0
  · exact ⟨0, by simp [h0]⟩
  have hpos : (0 : ℚ) < |(n : ℚ)| := abs_pos.2 (by exact_mod_cast h0)
  have hlog : (2 : ℚ) ^ e ≤ |(n : ℚ)| := by
    have := Int.zpow_log_le_self (b := 2) (r := |(n : ℚ)|) (by norm_num) hpos
    rw [← he] at this
    exact this
  have hnq : |(n : ℚ)| ≤ 2 ^ p := by exact_mod_cast hn
  by_cases hlt : e + 1 ≤ p
  · obtain ⟨t, ht⟩ := Int.le.dest hlt
    refine ⟨n * 2 ^ t, ?_⟩
    rw [show e + 1 - (p : Int) = -(t : Int) by omega, zpow_neg, div_inv_eq_mul, zpow_natCast]
    push_cast
    rfl
  · have hep : (p : Int) ≤ e := by omega
    have h1 : (2 : ℚ) ^ (p : Int) ≤ (2 : ℚ) ^ e := zpow_le_zpow_right₀ (by norm_num) hep
    rw [zpow_natCast] at h1
    have habs : |(n : ℚ)| = 2 ^ p := le_antisymm hnq (h1.trans hlog)
    have hee : e = p := by
      have h2 : (2 : ℚ) ^ e ≤ (2 : ℚ) ^ (p : Int) := by rw [zpow_natCast, ← habs]; exact hlog
      have := (zpow_le_zpow_iff_right₀ (by norm_num : (1 : ℚ) < 2)).1 h2
      omega
    rw [hee, show (p : Int) + 1 - p = 1 by omega, zpow_one]
    obtain ⟨q, rfl⟩ : ∃ q, p = q + 1 := ⟨p - 1, by omega⟩
    rcases abs_choice (n : ℚ) with h | h
    · refine ⟨2 ^ q, ?_⟩
      rw [h] at habs
      rw [habs, pow_succ]
      push_cast
      ring
    · refine ⟨-2 ^ q, ?_⟩
      rw [h] at habs
      rw [← neg_neg (n : ℚ), habs, pow_succ]
      push_cast
      ring

end Nda
