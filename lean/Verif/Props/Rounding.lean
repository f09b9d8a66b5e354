import Verif.Lemmas.RoundingBinary
import Verif.Props.LinearAlgebra
import Verif.Props.MatrixZOrder
import Verif.Props.Convolution
import Verif.Props.Ein
import Mathlib.Algebra.Order.Group.MinMax
/-
C82: rounding errors of matrix multiplication, of Einstein reductions and of convolutions. The order of operations
is that of C41, C52, C53 and C54; here it is combined with what is known of the operations of a floating-point type.
-/
namespace Nda
open Spec
variable {F : Type} {o : ScalarOps F} {Finite : F → Prop} {val : F → ℚ} {u η Ω : ℚ}

section
variable (A B C : Image2) (a b c : Int) (m : Mem F)

theorem inner_row {A B C : Image2} {a b c k : Int} (h : Multipliable A B C a b c)
    (hk : InInterval A.j.val.toInterval k) : inDim B.i k := by
  obtain ⟨h1, h2⟩ := h.inner
  show B.i.val.min ≤ k ∧ k < B.i.val.min + B.i.val.extent
  rw [← h1, ← h2]
  exact hk

/-- Each result of C52 has small errors. -/
theorem rounded_of_product (R : Rounds o Finite val u η Ω) {A B C : Image2} {a b c buf n : Int} {m m' : Mem F}
    (h : Multipliable A B C a b c) (hA : FiniteMatrix Finite A a m) (hB : FiniteMatrix Finite B b m)
    (hp : IsProduct o A B C a b c buf n m m') :
    IsRoundedProduct Finite val u η Ω A.j.val.extent.toNat A B C a b c m m' := by
  intro i j hi hj hΩ
  rw [hp.1 i j hi hj]
  have key := R.dotFrom (A := A) (B := B) (a := a) (b := b) (m := m) (i := i) (j := j) (ks := A.j.val.toInterval)
    (fun k hk => hA i k (h.rows i hi) hk) (fun k hk => hB k j (inner_row h hk) (h.cols j hj))
    (size := productSize val A B a b m i j) (sum_ascending _ _).symm hΩ
  rw [sum_ascending] at key
  exact key

/-- C82: `multiply_reduce_cols`, `multiply_reduce_rows` and `multiply_reduce_matrix`. -/
theorem C82_reduce (R : Rounds o Finite val u η Ω) (h : Multipliable A B C a b c) (hA : FiniteMatrix Finite A a m)
    (hB : FiniteMatrix Finite B b m) :
    (∃ m', multiplyReduceCols o A B C m = some m' ∧
      IsRoundedProduct Finite val u η Ω A.j.val.extent.toNat A B C a b c m m') ∧
    (∃ m', multiplyReduceRows o A B C m = some m' ∧
      IsRoundedProduct Finite val u η Ω A.j.val.extent.toNat A B C a b c m m') ∧
    (∃ m', multiplyReduceMatrix o A B C m = some m' ∧
      IsRoundedProduct Finite val u η Ω A.j.val.extent.toNat A B C a b c m m') := by
  refine ⟨?_, ?_, ?_⟩
  · obtain ⟨m', e, hp⟩ := C52_reduce_cols o A B C a b c m h
    exact ⟨m', e, rounded_of_product R h hA hB hp⟩
  · obtain ⟨m', e, hp⟩ := C52_reduce_rows o A B C a b c m h
    exact ⟨m', e, rounded_of_product R h hA hB hp⟩
  · obtain ⟨m', e, hp⟩ := C52_reduce_matrix o A B C a b c m h
    exact ⟨m', e, rounded_of_product R h hA hB hp⟩

/-- C82: `multiply_ein_reduce_cols`, `multiply_ein_reduce_rows` and `multiply_ein_reduce_matrix`. -/
theorem C82_ein_reduce (debug : Bool) (R : Rounds o Finite val u η Ω) (h : Multipliable A B C a b c)
    (hA : FiniteMatrix Finite A a m) (hB : FiniteMatrix Finite B b m) (hr : Encloses A.i C.i) (hc : Encloses B.j C.j)
    (hs : C.i.val.stride ≠ 0) :
    (∃ m', multiplyEinReduceCols o debug A B C m = some m' ∧
      IsRoundedProduct Finite val u η Ω A.j.val.extent.toNat A B C a b c m m') ∧
    (∃ m', multiplyEinReduceRows o debug A B C m = some m' ∧
      IsRoundedProduct Finite val u η Ω A.j.val.extent.toNat A B C a b c m m') ∧
    (∃ m', multiplyEinReduceMatrix o debug A B C m = some m' ∧
      IsRoundedProduct Finite val u η Ω A.j.val.extent.toNat A B C a b c m m') := by
  refine ⟨?_, ?_, ?_⟩
  · obtain ⟨m', e, hp⟩ := C52_ein_reduce_cols o A B C a b c m debug h hr hc hs
    exact ⟨m', e, rounded_of_product R h hA hB hp⟩
  · obtain ⟨m', e, hp⟩ := C52_ein_reduce_rows o A B C a b c m debug h hr hc hs
    exact ⟨m', e, rounded_of_product R h hA hB hp⟩
  · obtain ⟨m', e, hp⟩ := C52_ein_reduce_matrix o A B C a b c m debug h hr hc hs
    exact ⟨m', e, rounded_of_product R h hA hB hp⟩

/-- C82: `multiply_reduce_tiles` and `multiply_ein_reduce_tiles`. -/
theorem C82_tiles (debug : Bool) (tileRows tileCols buf : Int) (R : Rounds o Finite val u η Ω)
    (h : Multipliable A B C a b c) (hA : FiniteMatrix Finite A a m) (hB : FiniteMatrix Finite B b m)
    (hr : 0 < tileRows) (hc : 0 < tileCols) (hb : BufferFree A B C a b c buf (tileRows * tileCols))
    (hi : Splittable debug tileRows C.i) (hj : Splittable debug tileCols C.j) :
    (∃ m', multiplyReduceTiles o debug tileRows tileCols buf A B C m = some m' ∧
      IsRoundedProduct Finite val u η Ω A.j.val.extent.toNat A B C a b c m m') ∧
    (∃ m', multiplyEinReduceTiles o debug tileRows tileCols buf A B C m = some m' ∧
      IsRoundedProduct Finite val u η Ω A.j.val.extent.toNat A B C a b c m m') := by
  refine ⟨?_, ?_⟩
  · obtain ⟨m', e, hp⟩ := C52_reduce_tiles o A B C a b c m tileRows tileCols buf debug h hr hc hb hi hj
    exact ⟨m', e, rounded_of_product R h hA hB hp⟩
  · obtain ⟨m', e, hp⟩ := C52_ein_reduce_tiles o A B C a b c m tileRows tileCols buf debug h hr hc hb hi hj
    exact ⟨m', e, rounded_of_product R h hA hB hp⟩

/-- C82: `multiply_ref`. -/
theorem C82_ref (M K N : Int) (R : Rounds o Finite val u η Ω) (hM : 0 ≤ M) (hK : 0 ≤ K) (hN : 0 ≤ N)
    (hA : ∀ p, a ≤ p → p < a + M * K → ¬ (c ≤ p ∧ p < c + M * N))
    (hB : ∀ p, b ≤ p → p < b + K * N → ¬ (c ≤ p ∧ p < c + M * N))
    (hfA : FiniteMatrix Finite (denseMatrix a M K) a m) (hfB : FiniteMatrix Finite (denseMatrix b K N) b m) :
    ∃ m', multiplyRef o a b c M K N m = some m' ∧
      IsRoundedProduct Finite val u η Ω K.toNat (denseMatrix a M K) (denseMatrix b K N) (denseMatrix c M N) a b c m m' := by
  obtain ⟨m', e, hp⟩ := C52_ref o a b c m M K N hM hK hN hA hB
  exact ⟨m', e, rounded_of_product R (denseMatrix_multipliable hM hK hN hA hB) hfA hfB hp⟩

/-- C82: `multiply_reduce_tiles_z_order`, if the tiles do not overlap. The products of a block of `k` are added up
first, so each product takes part in fewer additions than there are products. -/
theorem C82_z_order (debug : Bool) (tileRows tileCols tileK buf : Int) (R : Rounds o Finite val u η Ω)
    (h : Multipliable A B C a b c) (hA : FiniteMatrix Finite A a m) (hB : FiniteMatrix Finite B b m)
    (hr : 0 < tileRows) (hc : 0 < tileCols) (hk : 0 < tileK)
    (hb : BufferFree A B C a b c buf (tileRows * tileCols))
    (hi : tileRows ≤ C.i.val.extent) (hj : tileCols ≤ C.j.val.extent) (hK : 0 < A.j.val.extent)
    (hd : tileRows ∣ C.i.val.extent ∧ tileCols ∣ C.j.val.extent) :
    ∃ m', multiplyReduceTilesZOrder o debug tileRows tileCols tileK buf A B C m = some m' ∧
      IsRoundedProduct Finite val u η Ω (tileK.toNat + ((A.j.val.extent + tileK - 1) / tileK - 1).toNat)
        A B C a b c m m' := by
  obtain ⟨m', e, hp, -⟩ := C53_z_order o A B C a b c m tileRows tileCols buf debug tileK h hr hc hk hb hi hj hK
  refine ⟨m', e, fun i j hi hj hΩ => ?_⟩
  rw [hp i j hi hj, tileCount_of_dvd hr hd.1, tileCount_of_dvd hc hd.2]
  show Finite (List.foldl (fun s ko => o.add s (dotFrom o A B a b m ko o.zero i j)) _ _) ∧
    |val (List.foldl (fun s ko => o.add s (dotFrom o A B a b m ko o.zero i j)) _ _) - _| ≤ _
  have hu := R.unit
  have hη := R.underflow
  set p : Int → ℚ := fun k => val (m (elementAddress A a i k)) * val (m (elementAddress B b k j)) with hpdef
  set q : Int → ℚ := fun k => |val (m (elementAddress A a i k))| * |val (m (elementAddress B b k j))| with hqdef
  have hpq : ∀ k, |p k| = q k := fun k => abs_mul _ _
  have hq0 : ∀ l : List Int, 0 ≤ (l.map q).sum := by
    intro l
    have := sum_map_nonneg_abs l p
    simpa only [hpq] using this
  set T := tileK.toNat with hT
  set ez : Interval → ℚ := fun ko => productError u η ko.extent.toNat T ((ascending ko).map q).sum with hez
  have e0 : blocks tileK A.j.val.toInterval = dynPieces tileK A.j.val.min A.j.val.extent := rfl
  obtain ⟨first, rest, hblocks⟩ : ∃ first rest, blocks tileK A.j.val.toInterval = first :: rest :=
    ⟨_, _, e0.trans (dynPieces_step hk hK)⟩
  have hfirst : first = ⟨A.j.val.min, min tileK A.j.val.extent⟩ := by
    have := hblocks.symm.trans (e0.trans (dynPieces_step hk hK))
    exact (List.cons.inj this).1
  have hlen : rest.length = ((A.j.val.extent + tileK - 1) / tileK - 1).toNat := by
    have h1 := congrArg List.length hblocks
    rw [List.length_cons] at h1
    have h2 : (blocks tileK A.j.val.toInterval).length = ((A.j.val.extent + tileK - 1) / tileK).toNat := by
      unfold blocks
      rw [List.length_map, List.length_range]
      rfl
    omega
  have hwithin : ∀ ko ∈ blocks tileK A.j.val.toInterval, ko.extent.toNat ≤ T ∧
      ∀ k, InInterval ko k → InInterval A.j.val.toInterval k := by
    intro ko hko
    have h1 := dynPieces_mem hk (e0 ▸ hko)
    refine ⟨?_, fun k hkk => ⟨h1.1.trans hkk.1, lt_of_lt_of_le hkk.2 h1.2.2⟩⟩
    unfold blocks at hko
    obtain ⟨t, -, rfl⟩ := List.mem_map.1 hko
    simp only [hT]
    omega
  -- the sums of the blocks
  have hext : (((blocks tileK A.j.val.toInterval).map fun ko => (ko.extent.toNat : ℚ)).sum) =
      (A.j.val.extent.toNat : ℚ) := by
    have h1 := sum_blocks (fun _ => 1) A.j.val.toInterval hk hK.le
    simp only [List.map_const', length_ascending, List.sum_replicate, nsmul_eq_mul, mul_one] at h1
    exact h1
  have hsizes : ((blocks tileK A.j.val.toInterval).map fun ko => ((ascending ko).map q).sum).sum =
      productSize val A B a b m i j := (sum_blocks q A.j.val.toInterval hk hK.le).trans (sum_ascending _ _)
  have hexact : ((blocks tileK A.j.val.toInterval).map fun ko => ((ascending ko).map p).sum).sum =
      exactProduct val A B a b m i j := (sum_blocks p A.j.val.toInterval hk hK.le).trans (sum_ascending _ _)
  have hbound : ∀ l : List Interval, (l.map fun ko => ((ascending ko).map q).sum + ez ko).sum =
      (1 + u) ^ (T + 1) * (l.map fun ko => ((ascending ko).map q).sum).sum +
        (l.map fun ko => (ko.extent.toNat : ℚ)).sum * η * (1 + u) ^ T := by
    intro l
    induction l with
    | nil => simp
    | cons x l ih =>
      simp only [List.map_cons, List.sum_cons]
      rw [ih]
      simp only [hez, productError]
      ring
  have htotal : (1 + u) ^ rest.length * (((ascending first).map q).sum + ez first +
      (rest.map fun ko => ((ascending ko).map q).sum + ez ko).sum) =
      productSize val A B a b m i j +
        productError u η A.j.val.extent.toNat (T + rest.length) (productSize val A B a b m i j) := by
    have h1 := hbound (first :: rest)
    rw [← hblocks, hsizes, hext, hblocks, List.map_cons, List.sum_cons] at h1
    rw [h1]
    unfold productError
    ring
  rw [← hlen] at hΩ ⊢
  have hpowrest : (1 : ℚ) ≤ (1 + u) ^ rest.length := one_le_pow₀ (by linarith)
  have hez0 : ∀ ko, 0 ≤ ez ko := fun ko => R.productError_nonneg _ _ (hq0 _)
  have hsumnn : ∀ l : List Interval, 0 ≤ (l.map fun ko => ((ascending ko).map q).sum + ez ko).sum := by
    intro l
    apply List.sum_nonneg
    intro y hy
    obtain ⟨ko, -, rfl⟩ := List.mem_map.1 hy
    have := hq0 (ascending ko)
    have := hez0 ko
    linarith
  -- one block
  have hblock : ∀ ko ∈ blocks tileK A.j.val.toInterval, Finite (dotFrom o A B a b m ko o.zero i j) ∧
      |val (dotFrom o A B a b m ko o.zero i j) - ((ascending ko).map p).sum| ≤ ez ko ∧
      |((ascending ko).map p).sum| ≤ ((ascending ko).map q).sum := by
    intro ko hko
    obtain ⟨h1, h2⟩ := hwithin ko hko
    have hmono : productError u η ko.extent.toNat ko.extent.toNat ((ascending ko).map q).sum ≤ ez ko :=
      R.productError_mono _ h1 (hq0 _)
    have hone : ((ascending ko).map q).sum + ez ko ≤
        ((blocks tileK A.j.val.toInterval).map fun ko => ((ascending ko).map q).sum + ez ko).sum :=
      List.single_le_sum (by
        intro y hy
        obtain ⟨ko, -, rfl⟩ := List.mem_map.1 hy
        have := hq0 (ascending ko)
        have := hez0 ko
        linarith) _ (List.mem_map.2 ⟨ko, hko, rfl⟩)
    have hall : ((blocks tileK A.j.val.toInterval).map fun ko => ((ascending ko).map q).sum + ez ko).sum ≤ Ω := by
      refine le_trans ?_ hΩ
      rw [← htotal, hblocks, List.map_cons, List.sum_cons]
      have h1 := hsumnn (first :: rest)
      rw [List.map_cons, List.sum_cons] at h1
      exact le_mul_of_one_le_left h1 hpowrest
    have key := R.dotFrom (A := A) (B := B) (a := a) (b := b) (m := m) (i := i) (j := j) (ks := ko)
      (fun k hk => hA i k (h.rows i hi) (h2 k hk))
      (fun k hk => hB k j (inner_row h (h2 k hk)) (h.cols j hj)) (size := ((ascending ko).map q).sum) rfl
      (by linarith)
    refine ⟨key.1, key.2.trans hmono, abs_sum_map_le _ _ _ fun k _ => (hpq k).le⟩
  have hf := hblock first (by rw [hblocks]; simp)
  have key := R.sum (fun ko => dotFrom o A B a b m ko o.zero i j) (fun ko => ((ascending ko).map p).sum)
    (fun ko => ((ascending ko).map q).sum) ez rest (dotFrom o A B a b m first o.zero i j)
    ((ascending first).map p).sum ((ascending first).map q).sum (ez first) hf.1 hf.2.1 hf.2.2
    (fun ko hko => hblock ko (by rw [hblocks]; exact List.mem_cons_of_mem _ hko)) (by rw [htotal]; exact hΩ)
  rw [htotal] at key
  rw [hblocks, List.map_cons, List.sum_cons] at hsizes hexact
  rw [hblocks, List.tail_cons, ← hfirst, ← hexact]
  refine ⟨key.1, key.2.trans ?_⟩
  rw [hsizes]
  linarith

/-- C82: without any rounding, the product is exact. This is so for floating-point numbers that are integers, as
long as the sums of magnitudes are at most `Ω = 2^24` (for `float`). -/
theorem C82_exact (depth : Nat) {A B C : Image2} {a b c : Int} {m m' : Mem F}
    (hp : IsRoundedProduct Finite val 0 0 Ω depth A B C a b c m m') (i j : Int) (hi : inDim C.i i) (hj : inDim C.j j)
    (hsize : productSize val A B a b m i j ≤ Ω) :
    val (m' (elementAddress C c i j)) = exactProduct val A B a b m i j := by
  have e : productError 0 0 A.j.val.extent.toNat depth (productSize val A B a b m i j) = 0 := by
    simp [productError]
  have := (hp i j hi hj (by rw [e]; linarith)).2
  rw [e] at this
  exact sub_eq_zero.1 (abs_eq_zero.1 (le_antisymm this (abs_nonneg _)))

/-- C82: a simpler bound, with `γ_n = n u / (1 - n u)`. -/
theorem C82_simple {t n : Nat} {u η size : ℚ} (hu : 0 ≤ u) (hη : 0 ≤ η) (hn : (n + 1 : Nat) * u < 1) (hsize : 0 ≤ size) :
    productError u η t n size ≤
      (n + 1 : Nat) * u / (1 - (n + 1 : Nat) * u) * size + t * η / (1 - (n + 1 : Nat) * u) := by
  have key : ∀ k : Nat, (1 + u) ^ k * (1 - k * u) ≤ 1 := by
    intro k
    induction k with
    | zero => simp
    | succ k ih =>
      have h1 : 0 ≤ (1 + u) ^ k := by positivity
      rw [pow_succ]
      push_cast
      have : (1 + u) ^ k * (1 + u) * (1 - (k + 1) * u) = (1 + u) ^ k * (1 - k * u) - (1 + u) ^ k * ((k + 1) * u ^ 2) := by
        ring
      have h2 : 0 ≤ (1 + u) ^ k * (((k : ℚ) + 1) * u ^ 2) := by positivity
      linarith
  set w : ℚ := 1 - (n + 1 : Nat) * u with hw
  have hw0 : 0 < w := by linarith
  have h1 : (1 + u) ^ (n + 1) ≤ 1 / w := by
    rw [le_div_iff₀ hw0]
    exact key (n + 1)
  have h2 : (1 + u) ^ n ≤ 1 / w := (pow_le_pow_right₀ (by linarith) (Nat.le_succ n)).trans h1
  have e1 : ((n + 1 : Nat) : ℚ) * u / w = 1 / w - 1 := by
    rw [eq_sub_iff_add_eq, div_add_one hw0.ne', hw]
    congr 1
    ring
  unfold productError
  rw [e1]
  have h3 := mul_le_mul_of_nonneg_right h1 hsize
  have h4 : (t : ℚ) * η * (1 + u) ^ n ≤ t * η * (1 / w) := mul_le_mul_of_nonneg_left h2 (by positivity)
  have e2 : (t : ℚ) * η / w = t * η * (1 / w) := by ring
  rw [e2]
  linarith

/-- C82: any two of the versions differ by at most the sum of their bounds. -/
theorem C82_versions (n1 n2 : Nat) {A B C : Image2} {a b c : Int} {m m1 m2 : Mem F}
    (h1 : IsRoundedProduct Finite val u η Ω n1 A B C a b c m m1)
    (h2 : IsRoundedProduct Finite val u η Ω n2 A B C a b c m m2) (i j : Int) (hi : inDim C.i i) (hj : inDim C.j j)
    (hΩ1 : productSize val A B a b m i j +
      productError u η A.j.val.extent.toNat n1 (productSize val A B a b m i j) ≤ Ω)
    (hΩ2 : productSize val A B a b m i j +
      productError u η A.j.val.extent.toNat n2 (productSize val A B a b m i j) ≤ Ω) :
    |val (m1 (elementAddress C c i j)) - val (m2 (elementAddress C c i j))| ≤
      productError u η A.j.val.extent.toNat n1 (productSize val A B a b m i j) +
      productError u η A.j.val.extent.toNat n2 (productSize val A B a b m i j) := by
  have k1 := (h1 i j hi hj hΩ1).2
  have k2 := (h2 i j hi hj hΩ2).2
  rw [abs_sub_comm] at k2
  exact (abs_sub_le _ (exactProduct val A B a b m i j) _).trans (add_le_add k1 k2)

end

/-- C82: however a compiler rearranges the sum of the products of an element of the result, as `-ffast-math` permits:
any order and association, and products contracted with an addition. The depth is at most the number of products if
zeros are not added more than once. -/
theorem C82_rearranged (R : Rounds o Finite val u η Ω) {fma : F → F → F → F} (hfma : RoundsFma fma Finite val u η Ω)
    {A B C : Image2} {a b c : Int} {m : Mem F} (h : Multipliable A B C a b c) (hA : FiniteMatrix Finite A a m)
    (hB : FiniteMatrix Finite B b m) (i j : Int) (hi : inDim C.i i) (hj : inDim C.j j) (t : SumTree Int)
    (ht : t.terms.Perm (ascending A.j.val.toInterval))
    (hΩ : productSize val A B a b m i j +
      productError u η A.j.val.extent.toNat t.depth (productSize val A B a b m i j) ≤ Ω) :
    Finite (t.eval o fma (fun k => m (elementAddress A a i k)) (fun k => m (elementAddress B b k j))) ∧
    |val (t.eval o fma (fun k => m (elementAddress A a i k)) (fun k => m (elementAddress B b k j))) -
      exactProduct val A B a b m i j| ≤
      productError u η A.j.val.extent.toNat t.depth (productSize val A B a b m i j) := by
  have hlen : t.terms.length = A.j.val.extent.toNat := ht.length_eq.trans (length_ascending _)
  have hsum : ∀ x : Int → ℚ, (t.terms.map x).sum = ∑ k ∈ spanOf A.j.val.toInterval, x k := fun x =>
    (ht.map x).sum_eq.trans (sum_ascending _ _)
  have key := R.tree hfma (fun k => m (elementAddress A a i k)) (fun k => m (elementAddress B b k j)) t t.depth le_rfl
    (fun k hk => by
      have hk := mem_ascending.1 (ht.mem_iff.1 hk)
      exact ⟨hA i k (h.rows i hi) hk, hB k j (inner_row h hk) (h.cols j hj)⟩)
    (productSize val A B a b m i j) (by
      rw [hsum]
      exact Finset.sum_congr rfl fun k _ => (abs_mul _ _).symm) (by rw [hlen]; exact hΩ)
  rw [hlen, hsum] at key
  exact key

/-- C82: `ein_reduce(lhs += rhs)`: the error of adding up the values of the right-hand side. -/
theorem C82_ein_sum (R : Rounds o Finite val u η Ω) (lhs : EinOp F) (rhs : EinExpr F) (m : Mem F)
    (h : EinInput lhs rhs) (ha : einAssert lhs rhs = true) (lb : Int) (ld : List SDim)
    (hl : lhs.op = .arr (some lb) ld) :
    ∃ m', einReduce o.add lhs rhs m = some m' ∧
      ∀ r, InBox (ld.map SDim.val) r → ∃ l : List Index,
        l.Nodup ∧ (∀ i, i ∈ l ↔ LoopIndex (lhs :: leaves rhs) i ∧ pick lhs.is i = r) ∧
        (Finite (m (lb + offsetOf (ld.map SDim.val) r)) → (∀ i ∈ l, Finite (valueAt m i rhs)) →
          (1 + u) ^ l.length * (|val (m (lb + offsetOf (ld.map SDim.val) r))| +
            (l.map fun i => |val (valueAt m i rhs)|).sum) ≤ Ω →
          |val (m' (lb + offsetOf (ld.map SDim.val) r)) -
            (val (m (lb + offsetOf (ld.map SDim.val) r)) + (l.map fun i => val (valueAt m i rhs)).sum)| ≤
            ((1 + u) ^ l.length - 1) * (|val (m (lb + offsetOf (ld.map SDim.val) r))| +
              (l.map fun i => |val (valueAt m i rhs)|).sum)) := by
  obtain ⟨m', e, h1, -⟩ := C41_fold o.add lhs rhs m h ha lb ld hl
  refine ⟨m', e, fun r hr => ?_⟩
  obtain ⟨l, hl1, hl2, hl3⟩ := h1 r hr
  refine ⟨l, ?_, hl2, fun hf hv hΩ => ?_⟩
  · exact hl1.imp fun hlt heq => by
      subst heq
      obtain ⟨-, k, x, y, h1, h2, h3, -⟩ := hlt
      rw [h1] at h2
      exact absurd (Option.some.inj h2) h3.ne
  · rw [hl3]
    have key := R.sum (fun i => valueAt m i rhs) (fun i => val (valueAt m i rhs)) (fun i => |val (valueAt m i rhs)|)
      (fun _ => 0) l (m (lb + offsetOf (ld.map SDim.val) r)) (val (m (lb + offsetOf (ld.map SDim.val) r)))
      |val (m (lb + offsetOf (ld.map SDim.val) r))| 0 hf (by simp) le_rfl
      (fun i hi => ⟨hv i hi, by simp, le_rfl⟩) (by simpa using hΩ)
    refine key.2.trans ?_
    simp only [add_zero]
    linarith

/-! ### Convolutions -/

theorem relu_naive (R : Rounds o Finite val u η Ω) {v : F} (hv : Finite v) :
    Finite (if o.lt v o.zero then o.zero else v) ∧ val (if o.lt v o.zero then o.zero else v) = max (val v) 0 := by
  by_cases hlt : o.lt v o.zero = true
  · have := (R.lt v o.zero hv R.zero.1).1 hlt
    rw [R.zero.2] at this
    rw [if_pos hlt, max_eq_right this.le]
    exact R.zero
  · have : ¬ val v < val o.zero := fun hn => hlt ((R.lt v o.zero hv R.zero.1).2 hn)
    rw [R.zero.2] at this
    rw [if_neg hlt, max_eq_left (not_lt.1 this)]
    exact ⟨hv, rfl⟩

theorem relu_tiled (R : Rounds o Finite val u η Ω) {v : F} (hv : Finite v) :
    Finite (if o.lt o.zero v then v else o.zero) ∧ val (if o.lt o.zero v then v else o.zero) = max (val v) 0 := by
  by_cases hlt : o.lt o.zero v = true
  · have := (R.lt o.zero v R.zero.1 hv).1 hlt
    rw [R.zero.2] at this
    rw [if_pos hlt, max_eq_left this.le]
    exact ⟨hv, rfl⟩
  · have : ¬ val o.zero < val v := fun hn => hlt ((R.lt o.zero v R.zero.1 hv).2 hn)
    rw [R.zero.2] at this
    rw [if_neg hlt, max_eq_right (not_lt.1 this)]
    exact R.zero

section
variable (input filter bias output : ArrayRef) (bi bf bb bo : Int) (m : Mem F)

theorem filter_taps (o : ScalarOps F) (co x y n : Int) : ∃ taps : List (Int × Int × Int),
    (∀ k ∈ taps, InInterval (indicesOf filter 3) k.1 ∧ InInterval (indicesOf filter 2) k.2.1 ∧
      InInterval (indicesOf filter 1) k.2.2) ∧ taps.length = filterTaps filter ∧
    (∀ g : Int × Int × Int → ℚ, (taps.map g).sum = ∑ ci ∈ spanOf (indicesOf filter 3),
      ∑ dy ∈ spanOf (indicesOf filter 2), ∑ dx ∈ spanOf (indicesOf filter 1), g (ci, dy, dx)) ∧
    convolution o input filter bias bi bf bb m co x y n =
      taps.foldl (fun s k => o.add s (o.mul (m (addressOf filter bf [co, k.2.2, k.2.1, k.1]))
        (m (addressOf input bi [k.1, x + k.2.2, y + k.2.1, n])))) (m (addressOf bias bb [co])) := by
  refine ⟨(ascending (indicesOf filter 3)).flatMap fun ci => (ascending (indicesOf filter 2)).flatMap fun dy =>
    (ascending (indicesOf filter 1)).map fun dx => (ci, dy, dx), ?_, ?_, ?_, ?_⟩
  · intro k hk
    obtain ⟨ci, hci, hk⟩ := List.mem_flatMap.1 hk
    obtain ⟨dy, hdy, hk⟩ := List.mem_flatMap.1 hk
    obtain ⟨dx, hdx, rfl⟩ := List.mem_map.1 hk
    exact ⟨mem_ascending.1 hci, mem_ascending.1 hdy, mem_ascending.1 hdx⟩
  · simp only [filterTaps, List.length_flatMap, List.length_map, length_ascending, List.map_const',
      List.sum_replicate, smul_eq_mul]
  · intro g
    simp only [sum_flatMap_map, List.map_map, sum_ascending, Function.comp_def]
  · simp only [convolution, List.foldl_flatMap, List.foldl_map]

theorem rounded_of_layer (R : Rounds o Finite val u η Ω) (h : Convolvable input filter bias output bi bf bb bo)
    (hin : ∀ i, InBox input.shape i → Finite (m (addressOf input bi i)))
    (hfi : ∀ i, InBox filter.shape i → Finite (m (addressOf filter bf i)))
    (hbi : ∀ i, InBox bias.shape i → Finite (m (addressOf bias bb i))) {relu : F → F}
    (hrelu : ∀ v, Finite v → Finite (relu v) ∧ val (relu v) = max (val v) 0) {m' : Mem F}
    (hl : IsLayer o relu input filter bias output bi bf bb bo m m') :
    IsRoundedLayer input filter bias output bi bf bb bo Finite val u η Ω m m' := by
  intro co x y n hbox hΩ
  rw [hl.1 co x y n hbox]
  obtain ⟨taps, hmem, hlen, hsum, hconv⟩ := filter_taps input filter bias bi bf bb m o co x y n
  have hsz : convolutionSize val input filter bi bf m co x y n = (taps.map fun k =>
      |val (m (addressOf filter bf [co, k.2.2, k.2.1, k.1]))| *
        |val (m (addressOf input bi [k.1, x + k.2.2, y + k.2.1, n]))|).sum := by
    rw [hsum]
    rfl
  have hex : exactConvolution val input filter bi bf m co x y n = (taps.map fun k =>
      val (m (addressOf filter bf [co, k.2.2, k.2.1, k.1])) *
        val (m (addressOf input bi [k.1, x + k.2.2, y + k.2.1, n]))).sum := by
    rw [hsum]
    rfl
  clear hsum
  have key := R.dot (fun k : Int × Int × Int => m (addressOf filter bf [co, k.2.2, k.2.1, k.1]))
    (fun k => m (addressOf input bi [k.1, x + k.2.2, y + k.2.1, n])) taps (m (addressOf bias bb [co]))
    (hbi _ (h.biasRead co x y n hbox))
    (fun k hk => hfi _ (h.read co x y n hbox _ _ _ (hmem k hk).1 (hmem k hk).2.1 (hmem k hk).2.2).1)
    (fun k hk => hin _ (h.read co x y n hbox _ _ _ (hmem k hk).1 (hmem k hk).2.1 (hmem k hk).2.2).2)
    (convolutionSize val input filter bi bf m co x y n) hsz (by rw [hlen]; exact hΩ)
  rw [hlen, ← hex, ← hconv] at key
  obtain ⟨hf, hval⟩ := hrelu _ key.1
  refine ⟨hf, ?_⟩
  rw [hval]
  exact (abs_max_sub_max_le_abs _ _ _).trans key.2

/-- C82: `conv2d_naive` and `conv2d_tiled`. -/
theorem C82_convolution (debug : Bool) (tileX tileCo : Int) (R : Rounds o Finite val u η Ω)
    (h : Convolvable input filter bias output bi bf bb bo)
    (hin : ∀ i, InBox input.shape i → Finite (m (addressOf input bi i)))
    (hfi : ∀ i, InBox filter.shape i → Finite (m (addressOf filter bf i)))
    (hbi : ∀ i, InBox bias.shape i → Finite (m (addressOf bias bb i))) :
    (∃ m', convNaive o input filter bias output m = some m' ∧
      IsRoundedLayer input filter bias output bi bf bb bo Finite val u η Ω m m') ∧
    (0 < tileX → 0 < tileCo → SplittableAxis debug tileX output 1 → SplittableAxis debug tileCo output 0 →
      ∃ m', convTiled o debug tileX tileCo input filter bias output m = some m' ∧
        IsRoundedLayer input filter bias output bi bf bb bo Finite val u η Ω m m') := by
  refine ⟨?_, fun hX hCo hsX hsCo => ?_⟩
  · obtain ⟨m', e, hl⟩ := C54_naive o input filter bias output bi bf bb bo m h
    exact ⟨m', e, rounded_of_layer input filter bias output bi bf bb bo m R h hin hfi hbi
      (fun v hv => relu_naive R hv) hl⟩
  · obtain ⟨m', e, hl⟩ := C54_tiled o input filter bias output bi bf bb bo m debug tileX tileCo h hX hCo hsX hsCo
    exact ⟨m', e, rounded_of_layer input filter bias output bi bf bb bo m R h hin hfi hbi
      (fun v hv => relu_tiled R hv) hl⟩

end

/-! ### Examples -/

/-- Floating-point arithmetic with `p` digits rounds with a relative error of `2^-p`. -/
theorem digitsOps_rounds (p : Nat) (Ω : ℚ) : Rounds (digitsOps p) (fun _ => True) id ((2 : ℚ)⁻¹ ^ p) 0 Ω where
  unit := by positivity
  underflow := le_rfl
  zero := ⟨trivial, rfl⟩
  add a b _ _ _ := ⟨trivial, nearest_error p (a + b)⟩
  mul a b _ _ _ := ⟨trivial, by rw [add_zero]; exact nearest_error p (a * b)⟩
  lt a b _ _ := decide_eq_true_iff

/-- Integers of at most `2^p` are added and multiplied without rounding. -/
theorem digitsOps_exact {p : Nat} (hp : 0 < p) :
    Rounds (digitsOps p) (fun x => ∃ n : Int, x = n ∧ |n| ≤ 2 ^ p) id 0 0 (2 ^ p) where
  unit := le_rfl
  underflow := le_rfl
  zero := ⟨⟨0, by simp [digitsOps]⟩, rfl⟩
  add a b ha hb h := by
    obtain ⟨x, rfl, -⟩ := ha
    obtain ⟨y, rfl, -⟩ := hb
    have h' : |x + y| ≤ 2 ^ p := by
      have : |(((x + y : Int)) : ℚ)| ≤ 2 ^ p := by push_cast; exact h
      exact_mod_cast this
    have e := nearest_int hp (x + y) h'
    push_cast at e
    refine ⟨⟨x + y, ?_, h'⟩, ?_⟩
    · push_cast; exact e
    · show |nearest p ((x : ℚ) + y) - (x + y)| ≤ _
      rw [e]; simp
  mul a b ha hb h := by
    obtain ⟨x, rfl, -⟩ := ha
    obtain ⟨y, rfl, -⟩ := hb
    have h' : |x * y| ≤ 2 ^ p := by
      have : |(((x * y : Int)) : ℚ)| ≤ 2 ^ p := by push_cast; exact h
      exact_mod_cast this
    have e := nearest_int hp (x * y) h'
    push_cast at e
    refine ⟨⟨x * y, ?_, h'⟩, ?_⟩
    · push_cast; exact e
    · show |nearest p ((x : ℚ) * y) - (x * y)| ≤ _
      rw [e]; simp
  lt a b _ _ := decide_eq_true_iff

/-- Fixed-point arithmetic rounds products with an absolute error of `1/d`. -/
theorem fixedOps_rounds {d : Int} (hd : 0 < d) (Ω : ℚ) :
    Rounds (fixedOps d) (fun _ => True) (fun x => (x : ℚ) / d) 0 (1 / d) Ω where
  unit := le_rfl
  underflow := by positivity
  zero := ⟨trivial, by simp [fixedOps]⟩
  add a b _ _ _ := ⟨trivial, by
    show |((a + b : Int) : ℚ) / d - (a / d + b / d)| ≤ _
    push_cast
    rw [← add_div, sub_self]
    simp⟩
  mul a b _ _ _ := ⟨trivial, by
    show |((a * b / d : Int) : ℚ) / d - (a / d * (b / d))| ≤ _
    have hdq : (0 : ℚ) < d := by exact_mod_cast hd
    have h1 := Int.emod_add_mul_ediv (a * b) d
    have h2 := Int.emod_nonneg (a * b) hd.ne'
    have h3 := Int.emod_lt_of_pos (a * b) hd
    have e : ((a * b / d : Int) : ℚ) / d - (a / d * (b / d)) = -(((a * b % d : Int) : ℚ) / d / d) := by
      have h1q : ((a * b % d : Int) : ℚ) + d * ((a * b / d : Int) : ℚ) = a * b := by exact_mod_cast h1
      field_simp
      linarith
    have h2q : (0 : ℚ) ≤ ((a * b % d : Int) : ℚ) := by exact_mod_cast h2
    have h3q : ((a * b % d : Int) : ℚ) ≤ d := by exact_mod_cast h3.le
    rw [e, abs_neg, abs_of_nonneg (by positivity), zero_mul, zero_add]
    exact div_le_div_of_nonneg_right ((div_le_one hdq).2 h3q) hdq.le⟩
  lt a b _ _ := by
    have hdq : (0 : ℚ) < d := by exact_mod_cast hd
    show decide (a < b) = true ↔ _
    rw [decide_eq_true_iff, div_lt_div_iff_of_pos_right hdq]
    exact_mod_cast Iff.rfl

/-- C82: binary32 rounds with `u = 2^-24`, `η = 2^-150`, up to its largest number. -/
theorem C82_float : Rounds floatOps IsFloat (fun x => x.getD 0) ((2 : ℚ)⁻¹ ^ 24) ((2 : ℚ) ^ (-150 : Int)) largestFloat :=
  binaryOps_rounds roundEven_nearest (N := 2 ^ 24 - 1) (E := 104) (by norm_num) (by norm_num) (by norm_num) rfl

/-- C82: binary formats with any rounding to nearest. -/
theorem C82_binary (rnd : ℚ → Int) (hrnd : ∀ y, |y - rnd y| ≤ 1 / 2) (p : Nat) (emin N E : Int) (hN : 2 ^ p ≤ 2 * N)
    (hN' : N < 2 ^ p) (hE : emin ≤ E) :
    Rounds (binaryOps rnd p emin (N * (2 : ℚ) ^ E)) (IsBinary p emin (N * (2 : ℚ) ^ E)) (fun x => x.getD 0)
      ((2 : ℚ)⁻¹ ^ p) ((2 : ℚ) ^ (emin - 1)) (N * (2 : ℚ) ^ E) :=
  binaryOps_rounds hrnd hN hN' hE rfl

/-- C82: the products of examples/linear_algebra/matrix.cpp (`float`, `K = 1536`): the error of each element is at most
`0.0000917` times the sum of magnitudes, and `2^-138`. -/
theorem C82_example {A B C : Image2} {a b c : Int} {m m' : Mem (Option ℚ)} (hK : A.j.val.extent = 1536)
    (hp : IsRoundedProduct IsFloat (fun x => x.getD 0) ((2 : ℚ)⁻¹ ^ 24) ((2 : ℚ) ^ (-150 : Int)) largestFloat 1536
      A B C a b c m m') (i j : Int) (hi : inDim C.i i) (hj : inDim C.j j)
    (hsize : productSize (fun x => x.getD 0) A B a b m i j ≤ 2 ^ 127) :
    |(m' (elementAddress C c i j)).getD 0 - exactProduct (fun x => x.getD 0) A B a b m i j| ≤
      917 / 10000000 * productSize (fun x => x.getD 0) A B a b m i j + (2 : ℚ) ^ (-138 : Int) := by
  have hS0 : 0 ≤ productSize (fun x : Option ℚ => x.getD 0) A B a b m i j := by
    unfold productSize
    exact Finset.sum_nonneg fun k _ => by positivity
  set S := productSize (fun x : Option ℚ => x.getD 0) A B a b m i j with hS
  have hu : (1536 + 1 : Nat) * (2 : ℚ)⁻¹ ^ 24 < 1 := by norm_num
  have hpe : productError ((2 : ℚ)⁻¹ ^ 24) ((2 : ℚ) ^ (-150 : Int)) A.j.val.extent.toNat 1536 S ≤
      917 / 10000000 * S + (2 : ℚ) ^ (-138 : Int) := by
    refine (C82_simple (by positivity) (two_zpow_pos (-150)).le hu hS0).trans (add_le_add ?_ ?_)
    · refine mul_le_mul_of_nonneg_right ?_ hS0
      norm_num
    · rw [hK, show (-138 : Int) = -150 + 12 by norm_num, zpow_add₀ (by norm_num), div_le_iff₀ (by norm_num)]
      show (1536 : ℚ) * _ ≤ _
      have h4 := two_zpow_pos (-150)
      generalize (2 : ℚ) ^ (-150 : Int) = z at h4 ⊢
      norm_num
      linarith
  refine (hp i j hi hj ?_).2.trans hpe
  have h5 : (2 : ℚ) ^ (-138 : Int) ≤ 1 := by
    rw [zpow_neg, inv_le_one₀ (two_zpow_pos 138)]
    norm_num
  have h6 : largestFloat = (2 ^ 24 - 1) * 2 ^ 104 := by
    unfold largestFloat
    norm_num
  rw [h6]
  norm_num at hsize ⊢
  linarith

/-- `2^24 + 1` is not a binary32 number, and the sum is rounded to even; `2^24 + 3` becomes `2^24 + 4`; the largest
number doubled is not finite; the smallest number halved is 0. -/
example : floatOps.add (some 16777216) (some 1) = some 16777216 ∧ floatOps.add (some 16777216) (some 3) = some 16777220 ∧
    floatOps.add (some largestFloat) (some largestFloat) = none ∧
    floatOps.mul (some ((2 : ℚ) ^ (-149 : Int))) (some (1 / 2)) = some 0 := by decide +kernel

/-- With three digits, `5 + 5 + 5` is 16. -/
example : dotFrom (digitsOps 3) (denseMatrix 0 1 3) (denseMatrix 3 3 1) 0 3 (fun p => if p < 3 then 5 else 1)
    ⟨0, 3⟩ 0 0 0 = 16 := by decide +kernel

/-- The error of this product is at most `((9/8)^4 - 1) * 15`, about 9.03. -/
example : ∃ m', multiplyReduceCols (digitsOps 3) (denseMatrix 0 1 3) (denseMatrix 3 3 1) (denseMatrix 6 1 1)
      (fun p => if p < 3 then 5 else 1) = some m' ∧ |m' 6 - 15| ≤ ((9 / 8) ^ 4 - 1) * 15 := by
  have h : Multipliable (denseMatrix 0 1 3) (denseMatrix 3 3 1) (denseMatrix 6 1 1) 0 3 6 :=
    denseMatrix_multipliable (by omega) (by omega) (by omega) (by intros; omega) (by intros; omega)
  obtain ⟨⟨m', e, hp⟩, -⟩ := C82_reduce (denseMatrix 0 1 3) (denseMatrix 3 3 1) (denseMatrix 6 1 1) 0 3 6
    (fun p => if p < 3 then (5 : ℚ) else 1) (digitsOps_rounds 3 100) h (fun _ _ _ _ => trivial) (fun _ _ _ _ => trivial)
  refine ⟨m', e, ?_⟩
  have hsz : productSize id (denseMatrix 0 1 3) (denseMatrix 3 3 1) 0 3 (fun p => if p < 3 then (5 : ℚ) else 1) 0 0 = 15 := by
    decide +kernel
  have hex : exactProduct id (denseMatrix 0 1 3) (denseMatrix 3 3 1) 0 3 (fun p => if p < 3 then (5 : ℚ) else 1) 0 0 = 15 := by
    decide +kernel
  have key := hp 0 0 ⟨by decide, by decide⟩ ⟨by decide, by decide⟩
  rw [hsz, hex] at key
  have hpe : productError ((2 : ℚ)⁻¹ ^ 3) 0 (denseMatrix 0 1 3).j.val.extent.toNat
      (denseMatrix 0 1 3).j.val.extent.toNat 15 = ((9 / 8) ^ 4 - 1) * 15 := by
    show ((1 + (2 : ℚ)⁻¹ ^ 3) ^ (3 + 1) - 1) * 15 + ((3 : Nat) : ℚ) * 0 * _ = _
    norm_num
  rw [hpe] at key
  exact (key (by norm_num)).2

/-- Two ways of adding up `8`, `1` and `1`, with three digits: in order, the sum is `12`; with the first product
contracted with the sum of the others, it is `10`. -/
example :
    (SumTree.add (.add (.add .zero (.term 0)) (.term 1)) (.term (2 : Nat))).eval (digitsOps 3)
      (fun a b c => nearest 3 (a * b + c)) (fun k => if k = 0 then 8 else 1) (fun _ => 1) = 12 ∧
    (SumTree.fma 0 (.add (.term 1) (.term (2 : Nat)))).eval (digitsOps 3)
      (fun a b c => nearest 3 (a * b + c)) (fun k => if k = 0 then 8 else 1) (fun _ => 1) = 10 ∧
    (SumTree.fma 0 (.add (.term 1) (.term (2 : Nat)))).depth = 2 ∧
    (SumTree.fma 0 (.add (.term 1) (.term (2 : Nat)))).terms = [0, 1, 2] :=
  ⟨by decide +kernel, by decide +kernel, rfl, rfl⟩

/-- Sums and products that are all rounded up by a relative error of `u`. -/
def upwardOps (u : ℚ) : ScalarOps ℚ :=
  ⟨0, fun a b => (a + b) * (1 + u), fun a b => a * b * (1 + u), fun a b => decide (a < b)⟩

theorem upwardOps_rounds {u : ℚ} (hu : 0 ≤ u) (Ω : ℚ) : Rounds (upwardOps u) (fun _ => True) id u 0 Ω where
  unit := hu
  underflow := le_rfl
  zero := ⟨trivial, rfl⟩
  add a b _ _ _ := ⟨trivial, by
    show |(a + b) * (1 + u) - (a + b)| ≤ u * |a + b|
    rw [show (a + b) * (1 + u) - (a + b) = u * (a + b) by ring, abs_mul, abs_of_nonneg hu]⟩
  mul a b _ _ _ := ⟨trivial, by
    show |a * b * (1 + u) - a * b| ≤ u * |a * b| + 0
    rw [show a * b * (1 + u) - a * b = u * (a * b) by ring, abs_mul, abs_of_nonneg hu, add_zero]⟩
  lt a b _ _ := decide_eq_true_iff

/-- C82: the bound is attained: there is an arithmetic, and a product of two matrices with one element, whose error
is the bound. -/
theorem C82_attained (u : ℚ) (hu : 0 ≤ u) :
    Rounds (upwardOps u) (fun _ => True) id u 0 ((1 + u) ^ 2) ∧
    ∃ m', multiplyReduceCols (upwardOps u) (denseMatrix 0 1 1) (denseMatrix 1 1 1) (denseMatrix 2 1 1) (fun _ => 1) = some m' ∧
      m' 2 - exactProduct id (denseMatrix 0 1 1) (denseMatrix 1 1 1) 0 1 (fun _ => (1 : ℚ)) 0 0 =
        productError u 0 1 1 (productSize id (denseMatrix 0 1 1) (denseMatrix 1 1 1) 0 1 (fun _ => (1 : ℚ)) 0 0) := by
  refine ⟨upwardOps_rounds hu _, ?_⟩
  have h : Multipliable (denseMatrix 0 1 1) (denseMatrix 1 1 1) (denseMatrix 2 1 1) 0 1 2 :=
    denseMatrix_multipliable (by omega) (by omega) (by omega) (by intros; omega) (by intros; omega)
  obtain ⟨m', e, hp⟩ := C52_reduce_cols (upwardOps u) (denseMatrix 0 1 1) (denseMatrix 1 1 1) (denseMatrix 2 1 1) 0 1 2
    (fun _ => (1 : ℚ)) h
  refine ⟨m', e, ?_⟩
  have h1 : m' 2 = (0 + 1 * 1 * (1 + u)) * (1 + u) := hp.1 0 0 ⟨by decide, by decide⟩ ⟨by decide, by decide⟩
  have hsz : productSize id (denseMatrix 0 1 1) (denseMatrix 1 1 1) 0 1 (fun _ => (1 : ℚ)) 0 0 = 1 := by
    decide +kernel
  have hex : exactProduct id (denseMatrix 0 1 1) (denseMatrix 1 1 1) 0 1 (fun _ => (1 : ℚ)) 0 0 = 1 := by
    decide +kernel
  rw [h1, hsz, hex]
  unfold productError
  ring

end Nda
