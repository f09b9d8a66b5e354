import Verif.Lemmas.Rounding
/-
Lemmas on sums of non-negative numbers that are added up in order and in blocks (C93).
-/
namespace Nda
open Spec
variable {F : Type} {o : ScalarOps F} {Finite : F → Prop} {val : F → ℚ} {u η Ω : ℚ}

/-- The numbers of a list added to `s` in order. -/
def addAll (o : ScalarOps F) (g : Int → F) (l : List Int) (s : F) : F := l.foldl (fun s k => o.add s (g k)) s

theorem pow_bound {u : ℚ} (hu : 0 ≤ u) (k : Nat) : (1 + u) ^ k * (1 - k * u) ≤ 1 := by
  induction k with
  | zero => simp
  | succ k ih =>
    have h1 : 0 ≤ (1 + u) ^ k := by positivity
    rw [pow_succ]
    push_cast
    have : (1 + u) ^ k * (1 + u) * (1 - (k + 1) * u) = (1 + u) ^ k * (1 - k * u) - (1 + u) ^ k * ((k + 1) * u ^ 2) := by
      ring
    have h2 : 0 ≤ (1 + u) ^ k * (((k : ℚ) + 1) * u ^ 2) := by positivity
    linarith

theorem map_sum_bounds {g : Int → F} (l : List Int) (hg : ∀ k ∈ l, 0 ≤ val (g k) ∧ val (g k) ≤ 2) :
    0 ≤ (l.map fun k => val (g k)).sum ∧ (l.map fun k => val (g k)).sum ≤ 2 * l.length := by
  induction l with
  | nil => simp
  | cons a l ih =>
    have h1 := hg a (by simp)
    have h2 := ih fun k hk => hg k (List.mem_cons_of_mem _ hk)
    simp only [List.map_cons, List.sum_cons, List.length_cons]
    push_cast
    constructor <;> linarith

theorem Spec.Rounds.addAll (R : Rounds o Finite val u η Ω) (g : Int → F) (l : List Int) (s : F) (hs : Finite s)
    (hs0 : 0 ≤ val s) (hg : ∀ k ∈ l, Finite (g k) ∧ 0 ≤ val (g k))
    (hΩ : (1 + u) ^ l.length * (val s + (l.map fun k => val (g k)).sum) ≤ Ω) :
    Finite (addAll o g l s) ∧ |val (addAll o g l s) - (val s + (l.map fun k => val (g k)).sum)| ≤
      ((1 + u) ^ l.length - 1) * (val s + (l.map fun k => val (g k)).sum) := by
  have key := R.sum g (fun k => val (g k)) (fun k => val (g k)) (fun _ => 0) l s (val s) (val s) 0 hs (by simp)
    (abs_of_nonneg hs0).le (fun k hk => ⟨(hg k hk).1, by simp, (abs_of_nonneg (hg k hk).2).le⟩) (by
      simpa only [add_zero] using hΩ)
  simp only [add_zero] at key
  refine ⟨key.1, key.2.trans (le_of_eq (by ring))⟩

theorem ascending_split (v : Interval) {n : Int} (h0 : 0 ≤ n) (hn : n ≤ v.extent) :
    ascending v = ascending ⟨v.min, n⟩ ++ ascending ⟨v.min + n, v.extent - n⟩ := by
  unfold ascending
  dsimp only
  have : v.extent.toNat = n.toNat + (v.extent - n).toNat := by omega
  rw [this, List.range_add, List.map_append, List.map_map]
  congr 1
  refine List.map_congr_left fun k _ => ?_
  simp only [Function.comp]
  push_cast
  omega

/-- At most 1536 numbers of [0, 2], added up in order, and added up in blocks of 256 whose sums are added up. -/
theorem Spec.Rounds.block_sums (R : Rounds o Finite val ((2 : ℚ)⁻¹ ^ 24) η Ω) (hΩ : 10000 ≤ Ω) (g : Int → F) (v : Interval)
    (h0 : 0 < v.extent) (hK : v.extent ≤ 1536)
    (hg : ∀ k, InInterval v k → Finite (g k) ∧ 0 ≤ val (g k) ∧ val (g k) ≤ 2) :
    let c := Nda.addAll o g (ascending v) o.zero
    let z := (blocks 256 v).tail.foldl (fun s ko => o.add s (Nda.addAll o g (ascending ko) o.zero))
      (Nda.addAll o g (ascending ⟨v.min, min 256 v.extent⟩) o.zero)
    Finite c ∧ Finite z ∧ 0 ≤ val c ∧ |val c - val z| ≤ 92 / 1000000 * val c := by
  intro c z
  set u : ℚ := (2 : ℚ)⁻¹ ^ 24 with hu
  have hu0 : 0 ≤ u := by positivity
  have hun : u = 1 / 16777216 := by rw [hu]; norm_num
  obtain ⟨P, Q, hP, hP1, hP2, hQ, hQ2⟩ : ∃ P Q : ℚ, (∀ n : Nat, n ≤ 256 → (1 + u) ^ n ≤ P) ∧ 1 ≤ P ∧ P ≤ 1 + 1 / 1000 ∧
      (∀ n : Nat, n ≤ 5 → (1 + u) ^ n * P ≤ Q) ∧ Q ≤ 1 + 1558 / 100000000 := by
    refine ⟨(1 + u) ^ 256, (1 + u) ^ 261, fun n h => pow_le_pow_right₀ (by linarith) h, one_le_pow₀ (by linarith), ?_,
      fun n h => ?_, ?_⟩
    · have := pow_bound hu0 256
      generalize (1 + u) ^ 256 = P at this ⊢
      rw [hun] at this
      push_cast at this
      linarith
    · rw [← pow_add]
      exact pow_le_pow_right₀ (by linarith) (by omega)
    · have := pow_bound hu0 261
      generalize (1 + u) ^ 261 = P at this ⊢
      rw [hun] at this
      push_cast at this
      linarith
  obtain ⟨W, hW, hW2⟩ : ∃ W : ℚ, (∀ n : Nat, n ≤ 1280 → (1 + u) ^ n ≤ W) ∧ W ≤ 1 + 7631 / 100000000 := by
    refine ⟨(1 + u) ^ 1280, fun n h => pow_le_pow_right₀ (by linarith) h, ?_⟩
    have := pow_bound hu0 1280
    generalize (1 + u) ^ 1280 = P at this ⊢
    rw [hun] at this
    push_cast at this
    linarith
  set w : Int → ℚ := fun k => val (g k) with hw
  set f := min 256 v.extent with hf
  set first : Interval := ⟨v.min, f⟩ with hfirst
  set rest : Interval := ⟨v.min + f, v.extent - f⟩ with hrest
  have hsplit : ascending v = ascending first ++ ascending rest := ascending_split v (by omega) (by omega)
  have hblocks : (blocks 256 v).tail = blocks 256 rest := by
    have e0 : blocks 256 v = dynPieces 256 v.min v.extent := rfl
    rw [e0, dynPieces_step (by norm_num) h0, List.tail_cons]
    rfl
  have hin : ∀ k ∈ ascending v, Finite (g k) ∧ 0 ≤ val (g k) ∧ val (g k) ≤ 2 := fun k hk => hg k (mem_ascending.1 hk)
  have hinF : ∀ k ∈ ascending first, Finite (g k) ∧ 0 ≤ val (g k) ∧ val (g k) ≤ 2 :=
    fun k hk => hin k (by rw [hsplit]; exact List.mem_append_left _ hk)
  have hinR : ∀ k ∈ ascending rest, Finite (g k) ∧ 0 ≤ val (g k) ∧ val (g k) ≤ 2 :=
    fun k hk => hin k (by rw [hsplit]; exact List.mem_append_right _ hk)
  have lF : (ascending first).length ≤ 256 := by rw [length_ascending]; show f.toNat ≤ 256; omega
  have lR : (ascending rest).length ≤ 1280 := by rw [length_ascending]; show (v.extent - f).toNat ≤ 1280; omega
  have lFq : ((ascending first).length : ℚ) ≤ 256 := by exact_mod_cast lF
  have lRq : ((ascending rest).length : ℚ) ≤ 1280 := by exact_mod_cast lR
  -- the first block
  obtain ⟨f0, f1⟩ := map_sum_bounds (val := val) (ascending first) fun k hk => (hinF k hk).2
  obtain ⟨r0, r1⟩ := map_sum_bounds (val := val) (ascending rest) fun k hk => (hinR k hk).2
  set T := ((ascending first).map fun k => val (g k)).sum with hT
  set S := ((ascending rest).map fun k => val (g k)).sum with hS
  have hone : ∀ {l : List Int} {q₀ : ℚ}, l.length ≤ 256 → q₀ = (l.map fun k => val (g k)).sum → q₀ ≤ 4000 →
      (∀ k ∈ l, Finite (g k) ∧ 0 ≤ val (g k) ∧ val (g k) ≤ 2) →
      Finite (Nda.addAll o g l o.zero) ∧ |val (Nda.addAll o g l o.zero) - q₀| ≤ (P - 1) * q₀ := by
    intro l q₀ hl he hs hgl
    have hs0 : 0 ≤ q₀ := by rw [he]; exact (map_sum_bounds l fun k hk => (hgl k hk).2).1
    have key := R.addAll g l o.zero R.zero.1 R.zero.2.ge (fun k hk => ⟨(hgl k hk).1, (hgl k hk).2.1⟩) (by
      rw [R.zero.2, zero_add, ← he]
      refine le_trans ?_ hΩ
      exact (mul_le_mul_of_nonneg_right ((hP _ hl).trans hP2) hs0).trans (by linarith))
    rw [R.zero.2, zero_add, ← he] at key
    refine ⟨key.1, key.2.trans (mul_le_mul_of_nonneg_right ?_ hs0)⟩
    linarith [hP _ hl]
  obtain ⟨fX, eX⟩ := hone lF rfl (by linarith) hinF
  set X := Nda.addAll o g (ascending first) o.zero with hX
  have eX' := abs_le.1 eX
  have hX0 : 0 ≤ val X ∧ val X ≤ 600 := by constructor <;> nlinarith [eX'.1, eX'.2]
  -- in order
  have hc : c = Nda.addAll o g (ascending rest) X := by
    show Nda.addAll o g (ascending v) o.zero = _
    rw [hsplit]
    unfold Nda.addAll
    rw [List.foldl_append]
    rfl
  set Y := val X + S with hY
  have hY0 : 0 ≤ Y := by linarith [hX0.1]
  have hY1 : Y ≤ 3200 := by linarith [hX0.2]
  obtain ⟨fc, ec⟩ := R.addAll g (ascending rest) X fX hX0.1 (fun k hk => ⟨(hinR k hk).1, (hinR k hk).2.1⟩) (by
    refine le_trans ?_ hΩ
    exact (mul_le_mul_of_nonneg_right ((hW _ lR).trans hW2) hY0).trans (by linarith))
  rw [← hc] at fc ec
  have ec2 : |val c - Y| ≤ 7631 / 100000000 * Y :=
    ec.trans (mul_le_mul_of_nonneg_right (by linarith [(hW _ lR).trans hW2]) hY0)
  -- in blocks
  have hblock : ∀ ko ∈ blocks 256 rest, (ascending ko).length ≤ 256 ∧ (∀ k ∈ ascending ko, k ∈ ascending rest) := by
    intro ko hko
    have h1 := dynPieces_mem (by norm_num : (0 : Int) < 256) (show ko ∈ dynPieces 256 rest.min rest.extent from hko)
    refine ⟨?_, fun k hk => ?_⟩
    · unfold blocks at hko
      obtain ⟨t, -, rfl⟩ := List.mem_map.1 hko
      rw [length_ascending]
      dsimp only
      omega
    · have h2 := mem_ascending.1 hk
      exact mem_ascending.2 ⟨h1.1.trans h2.1, lt_of_lt_of_le h2.2 h1.2.2⟩
  set B : Interval → ℚ := fun ko => ((ascending ko).map fun k => val (g k)).sum with hB
  have hsum : ((blocks 256 rest).map B).sum = S := sum_blocks w rest (by norm_num) (by show 0 ≤ v.extent - f; omega)
  have hBb : ∀ ko ∈ blocks 256 rest, 0 ≤ B ko ∧ B ko ≤ 512 := by
    intro ko hko
    obtain ⟨h1, h2⟩ := hblock ko hko
    have h3 := map_sum_bounds (val := val) (ascending ko) fun k hk => (hinR k (h2 k hk)).2
    have h4 : ((ascending ko).length : ℚ) ≤ 256 := by exact_mod_cast h1
    exact ⟨h3.1, h3.2.trans (by linarith)⟩
  have hlen : (blocks 256 rest).length ≤ 5 := by
    unfold blocks
    rw [List.length_map, List.length_range]
    show ((v.extent - f + 256 - 1) / 256).toNat ≤ 5
    omega
  have hsums : ∀ l : List Interval, (l.map fun ko => B ko + (P - 1) * B ko).sum =
      P * (l.map B).sum := by
    intro l
    induction l with
    | nil => simp
    | cons x l ih => simp only [List.map_cons, List.sum_cons, ih]; ring
  have htot : val X + 0 + ((blocks 256 rest).map fun ko => B ko + (P - 1) * B ko).sum ≤ P * Y := by
    rw [hsums, hsum]
    have := mul_le_mul_of_nonneg_right hP1 hX0.1
    rw [hY]
    linarith
  have htot2 : (1 + u) ^ (blocks 256 rest).length * (val X + 0 +
      ((blocks 256 rest).map fun ko => B ko + (P - 1) * B ko).sum) ≤ Q * Y := by
    refine (mul_le_mul_of_nonneg_left htot (by positivity)).trans ?_
    rw [← mul_assoc]
    exact mul_le_mul_of_nonneg_right (hQ _ hlen) hY0
  have hY261 := mul_le_mul_of_nonneg_right hQ2 hY0
  have key := R.sum (fun ko => Nda.addAll o g (ascending ko) o.zero) B B (fun ko => (P - 1) * B ko)
    (blocks 256 rest) X (val X) (val X) 0 fX (by simp) (abs_of_nonneg hX0.1).le (fun ko hko => by
      obtain ⟨h1, h2⟩ := hblock ko hko
      obtain ⟨h3, h4⟩ := hBb ko hko
      obtain ⟨h5, h6⟩ := hone (q₀ := B ko) h1 rfl (by linarith) fun k hk => hinR k (h2 k hk)
      exact ⟨h5, h6, (abs_of_nonneg h3).le⟩) (htot2.trans (by linarith))
  have hz : z = (blocks 256 rest).foldl (fun s ko => o.add s (Nda.addAll o g (ascending ko) o.zero)) X := by
    show (blocks 256 v).tail.foldl _ _ = _
    rw [hblocks]
  rw [← hz, hsum] at key
  have ez : |val z - Y| ≤ 1558 / 100000000 * Y := by
    refine key.2.trans ?_
    rw [← hY]
    have := htot2.trans hY261
    refine (sub_le_sub_right this _).trans (by linarith)
  have ec' := abs_le.1 ec2
  have hcY : (1 - 7631 / 100000000) * Y ≤ val c := by linarith [ec'.1]
  refine ⟨fc, key.1, by nlinarith, ?_⟩
  have e : val c - val z = (val c - Y) - (val z - Y) := by ring
  rw [e]
  have := abs_sub (val c - Y) (val z - Y)
  linarith

end Nda
