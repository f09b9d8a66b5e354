import Verif.Model.TestCopies
import Verif.Props.NullViews
import Verif.Props.TestPattern
import Mathlib.Tactic.LinearCombination
import Mathlib.Tactic.Linarith
import Mathlib.Tactic.Positivity
import Mathlib.Tactic.Ring
/-
C107: the copies that test/performance.cpp compares with `copy`, and its tests.
-/
namespace Nda
open Spec
variable {α : Type}

/-- Copying blocks `(dst, src, n)` one after the other. -/
private def runBlocks (l : List (Int × Int × Int)) (m : Mem α) : Option (Mem α) :=
  l.foldlM (fun m t => memcpy t.1 t.2.1 t.2.2 m) m

private theorem memcpy_ok {dst src n : Int} (h : ∀ k l, 0 ≤ k → k < n → 0 ≤ l → l < n → src + k ≠ dst + l) (m : Mem α) :
    memcpy dst src n m = some fun x => if dst ≤ x ∧ x < dst + n then m (src + (x - dst)) else m x := by
  unfold memcpy
  rw [if_neg]
  rintro ⟨h1, h2⟩
  rcases le_total src dst with h3 | h3
  · exact h (dst - src) 0 (by omega) (by omega) (by omega) (by omega) (by omega)
  · exact h 0 (src - dst) (by omega) (by omega) (by omega) (by omega) (by omega)

/-- Blocks that copy elements of `a` to the elements of `c` with the same indices. -/
private def BlockOf (a c : ArrayRef) (ab cb : Int) (t : Int × Int × Int) : Prop :=
  ∀ k, 0 ≤ k → k < t.2.2 → ∃ i, InBox c.shape i ∧ t.1 + k = cb + offsetOf c.shape i ∧ t.2.1 + k = ab + offsetOf a.shape i

section
variable {a c : ArrayRef} {ab cb : Int}

private theorem blocks_run (hin : ∀ i, InBox c.shape i → InBox a.shape i) (hinj : Injective c.shape)
    (hdis : DisjointElems a.shape ab c.shape cb) (l : List (Int × Int × Int)) (hl : ∀ t ∈ l, BlockOf a c ab cb t) (m : Mem α) :
    ∃ m', runBlocks l m = some m' ∧
      (∀ i, InBox c.shape i → (∃ t ∈ l, t.1 ≤ cb + offsetOf c.shape i ∧ cb + offsetOf c.shape i < t.1 + t.2.2) →
        m' (cb + offsetOf c.shape i) = m (ab + offsetOf a.shape i)) ∧
      ∀ x, (∀ t ∈ l, ¬ (t.1 ≤ x ∧ x < t.1 + t.2.2)) → m' x = m x := by
  induction l generalizing m with
  | nil => exact ⟨m, rfl, by simp, by simp⟩
  | cons t l ih =>
    have ht := hl t (by simp)
    have ho := memcpy_ok (dst := t.1) (src := t.2.1) (n := t.2.2) (by
      intro k k' h1 h2 h3 h4 e
      obtain ⟨i, hi, -, e1⟩ := ht k h1 h2
      obtain ⟨j, hj, e2, -⟩ := ht k' h3 h4
      exact hdis i j (hin i hi) hj (by omega)) m
    obtain ⟨m', e, h1, h2⟩ := ih (fun t ht => hl t (by simp [ht]))
      (fun x => if t.1 ≤ x ∧ x < t.1 + t.2.2 then m (t.2.1 + (x - t.1)) else m x)
    refine ⟨m', ?_, ?_, ?_⟩
    · unfold runBlocks
      rw [List.foldlM_cons, ho]
      exact e
    · intro i hi hc
      by_cases hcl : ∃ t ∈ l, t.1 ≤ cb + offsetOf c.shape i ∧ cb + offsetOf c.shape i < t.1 + t.2.2
      · rw [h1 i hi hcl, if_neg]
        rintro ⟨g1, g2⟩
        obtain ⟨j, hj, e2, -⟩ := ht (ab + offsetOf a.shape i - t.1) (by omega) (by omega)
        exact hdis i j (hin i hi) hj (by omega)
      · rw [h2 _ fun t ht hx => hcl ⟨t, ht, hx⟩]
        obtain ⟨t', ht', hx⟩ := hc
        rcases List.mem_cons.1 ht' with rfl | ht'
        · rw [if_pos hx]
          obtain ⟨j, hj, e1, e2⟩ := ht (cb + offsetOf c.shape i - t'.1) (by omega) (by omega)
          have : j = i := hinj j i hj hi (by omega)
          subst this
          rw [e2]
        · exact absurd ⟨t', ht', hx⟩ hcl
    · intro x hx
      rw [h2 x fun t ht => hx t (by simp [ht]), if_neg (hx t (by simp))]

/-- Blocks that cover the elements of `c` do what `copy` does. -/
private theorem blocks_copy (ha : a.base = some ab) (hc : c.base = some cb) (hlen : List.length a.shape = c.shape.length)
    (hn : NonNeg c.shape) (hin : ∀ i, InBox c.shape i → InBox a.shape i) (hinj : Injective c.shape)
    (hdis : DisjointElems a.shape ab c.shape cb) (l : List (Int × Int × Int)) (hl : ∀ t ∈ l, BlockOf a c ab cb t)
    (hcov : ∀ i, InBox c.shape i → ∃ t ∈ l, t.1 ≤ cb + offsetOf c.shape i ∧ cb + offsetOf c.shape i < t.1 + t.2.2) (m : Mem α) :
    runBlocks l m = some (copy id a c m) := by
  obtain ⟨m', e, h1, h2⟩ := blocks_run hin hinj hdis l hl m
  obtain ⟨g1, g2⟩ := C15_copy id a c ab cb ha hc hlen hn hin hinj hdis m
  rw [e]
  congr 1
  funext x
  by_cases hx : ∃ i, InBox c.shape i ∧ x = cb + offsetOf c.shape i
  · obtain ⟨i, hi, rfl⟩ := hx
    rw [h1 i hi (hcov i hi), g1 i hi]
    rfl
  · rw [g2 x fun i hi e => hx ⟨i, hi, e⟩]
    refine h2 x fun t ht hb => hx ?_
    obtain ⟨i, hi, e1, -⟩ := hl t ht (x - t.1) (by omega) (by omega)
    exact ⟨i, hi, by omega⟩

end

private theorem foldlM_nested {β γ σ : Type} (f : σ → γ → Option σ) (g : β → List γ) (l : List β) (s : σ) :
    l.foldlM (fun s x => (g x).foldlM f s) s = (l.flatMap g).foldlM f s := by
  induction l generalizing s with
  | nil => rfl
  | cons x l ih =>
    rw [List.foldlM_cons, List.flatMap_cons, List.foldlM_append]
    congr 1
    funext s'
    exact ih s'

private theorem foldlM_same {β σ : Type} {f g : σ → β → Option σ} (l : List β) (h : ∀ s, ∀ x ∈ l, f s x = g s x) {s : σ} :
    l.foldlM f s = l.foldlM g s := by
  induction l generalizing s with
  | nil => rfl
  | cons x l ih =>
    rw [List.foldlM_cons, List.foldlM_cons, h s x (by simp)]
    congr 1
    funext s'
    exact ih fun s y hy => h s y (by simp [hy])

private theorem at_some {r : ArrayRef} {b : Int} (h : r.base = some b) (i : Index) : r.at_ i = some (b + offsetOf r.shape i) := by
  unfold ArrayRef.at_
  rw [h, flatOffset_eq]
  rfl

section
variable {ab cb : Int}

/-- C107: copying the rows with `memcpy` does what `copy` does, for all crops of all arrays with dense rows. -/
theorem C107_rows (ax ay az x y z : Dim) (ha1 : ax.stride = 1) (hx1 : x.stride = 1)
    (hn : NonNeg [x, y, z]) (hin : ∀ i, InBox [x, y, z] i → InBox [ax, ay, az] i) (hinj : Injective [x, y, z])
    (hdis : DisjointElems [ax, ay, az] ab [x, y, z] cb) (m : Mem α) :
    memcpyRows ⟨some ab, [ax, ay, az]⟩ ⟨some cb, [x, y, z]⟩ m = some (copy id ⟨some ab, [ax, ay, az]⟩ ⟨some cb, [x, y, z]⟩ m) := by
  have nx := hn x (by simp)
  have ny := hn y (by simp)
  have nz := hn z (by simp)
  rw [← blocks_copy (a := ⟨some ab, [ax, ay, az]⟩) (c := ⟨some cb, [x, y, z]⟩) rfl rfl rfl hn hin hinj hdis
    ((ints z.min z.extent).flatMap fun k => (ints y.min y.extent).map fun j =>
      (cb + offsetOf [x, y, z] [x.min, j, k], ab + offsetOf [ax, ay, az] [x.min, j, k], x.extent)) ?_ ?_ m]
  · unfold runBlocks memcpyRows
    rw [← foldlM_nested]
    simp only [Dim.iterate_eq ny, Dim.iterate_eq nz, at_some (r := ⟨some ab, [ax, ay, az]⟩) rfl,
      at_some (r := ⟨some cb, [x, y, z]⟩) rfl, Option.bind_eq_bind, Option.bind_some, List.foldlM_map]
  · intro t ht k h1 h2
    rw [List.mem_flatMap] at ht
    obtain ⟨kz, hz, ht⟩ := ht
    rw [List.mem_map] at ht
    obtain ⟨j, hy, rfl⟩ := ht
    have hz := mem_ints.1 hz
    have hy := mem_ints.1 hy
    simp only at h2
    refine ⟨[x.min + k, j, kz], ⟨⟨by omega, by omega⟩, hy, hz, trivial⟩, ?_, ?_⟩ <;> simp only [offsetOf, ha1, hx1] <;> ring
  · intro i hi
    match i, hi with
    | [i, j, k], hi =>
      simp only [InBox] at hi
      refine ⟨_, List.mem_flatMap.2 ⟨k, mem_ints.2 hi.2.2.1, List.mem_map.2 ⟨j, mem_ints.2 hi.2.1, rfl⟩⟩, ?_, ?_⟩ <;>
        simp only [offsetOf, hx1] <;> omega

/-- C107: copying the rows of pixels with `memcpy` does what `copy` does, for all crops of all images with dense pixels and
channels. -/
theorem C107_chunky (ax ay ac x y ch : Dim) (ha1 : ac.stride = 1) (hc1 : ch.stride = 1) (hc0 : ch.min = 0) (hac0 : ac.min = 0)
    (hax : ax.stride = ch.extent) (hx1 : x.stride = ch.extent) (hn : NonNeg [x, y, ch])
    (hin : ∀ i, InBox [x, y, ch] i → InBox [ax, ay, ac] i) (hinj : Injective [x, y, ch])
    (hdis : DisjointElems [ax, ay, ac] ab [x, y, ch] cb) (m : Mem α) :
    memcpyChunkyRows ⟨some ab, [ax, ay, ac]⟩ ⟨some cb, [x, y, ch]⟩ m =
      some (copy id ⟨some ab, [ax, ay, ac]⟩ ⟨some cb, [x, y, ch]⟩ m) := by
  have nx := hn x (by simp)
  have ny := hn y (by simp)
  have nc := hn ch (by simp)
  rw [← blocks_copy (a := ⟨some ab, [ax, ay, ac]⟩) (c := ⟨some cb, [x, y, ch]⟩) rfl rfl rfl hn hin hinj hdis
    ((ints y.min y.extent).map fun j =>
      (cb + offsetOf [x, y, ch] [x.min, j, 0], ab + offsetOf [ax, ay, ac] [x.min, j, 0], x.extent * ch.extent)) ?_ ?_ m]
  · unfold runBlocks memcpyChunkyRows
    simp only [Dim.iterate_eq ny, at_some (r := ⟨some ab, [ax, ay, ac]⟩) rfl,
      at_some (r := ⟨some cb, [x, y, ch]⟩) rfl, Option.bind_eq_bind, Option.bind_some, List.foldlM_map]
  · intro t ht k h1 h2
    rw [List.mem_map] at ht
    obtain ⟨j, hy, rfl⟩ := ht
    have hy := mem_ints.1 hy
    simp only at h2
    have hpos : 0 < ch.extent := by
      rcases nc.lt_or_eq with h | h
      · exact h
      · rw [← h, mul_zero] at h2; omega
    have e := Int.emod_add_mul_ediv k ch.extent
    have q0 := Int.ediv_nonneg h1 nc
    have q1 := Int.ediv_lt_of_lt_mul hpos h2
    have r0 := Int.emod_nonneg k hpos.ne'
    have r1 := Int.emod_lt_of_pos k hpos
    refine ⟨[x.min + k / ch.extent, j, k % ch.extent], ⟨⟨by omega, by omega⟩, hy, ⟨by omega, by omega⟩, trivial⟩, ?_, ?_⟩ <;>
      simp only [offsetOf, ha1, hx1, hc1, hc0, hac0, hax] <;> linear_combination -e
  · intro i hi
    match i, hi with
    | [i, j, k], hi =>
      simp only [InBox] at hi
      refine ⟨_, List.mem_map.2 ⟨j, mem_ints.2 hi.2.1, rfl⟩, ?_, ?_⟩ <;>
        simp only [offsetOf, hx1, hc1, hc0] at hi ⊢ <;> nlinarith [mul_nonneg (sub_nonneg.2 hi.1.1) nc]

/-- C107: three loops over elements in any layout do what `copy` does. -/
theorem C107_loops (ax ay az x y z : Dim) (hn : NonNeg [x, y, z]) (hin : ∀ i, InBox [x, y, z] i → InBox [ax, ay, az] i)
    (hinj : Injective [x, y, z]) (hdis : DisjointElems [ax, ay, az] ab [x, y, z] cb) (m : Mem α) :
    copyByLoops ⟨some ab, [ax, ay, az]⟩ ⟨some cb, [x, y, z]⟩ m =
      some (copy id ⟨some ab, [ax, ay, az]⟩ ⟨some cb, [x, y, z]⟩ m) := by
  have nx := hn x (by simp)
  have ny := hn y (by simp)
  have nz := hn z (by simp)
  have hblk : ∀ i j k, InBox [x, y, z] [i, j, k] →
      BlockOf ⟨some ab, [ax, ay, az]⟩ ⟨some cb, [x, y, z]⟩ ab cb
        (cb + offsetOf [x, y, z] [i, j, k], ab + offsetOf [ax, ay, az] [i, j, k], 1) := by
    intro i j k h q h1 h2
    have : q = 0 := by simp only at h2; omega
    exact ⟨_, h, by simp [this], by simp [this]⟩
  rw [← blocks_copy (a := ⟨some ab, [ax, ay, az]⟩) (c := ⟨some cb, [x, y, z]⟩) rfl rfl rfl hn hin hinj hdis
    ((ints z.min z.extent).flatMap fun k => (ints y.min y.extent).flatMap fun j => (ints x.min x.extent).map fun i =>
      (cb + offsetOf [x, y, z] [i, j, k], ab + offsetOf [ax, ay, az] [i, j, k], 1)) ?_ ?_ m]
  · unfold runBlocks copyByLoops
    rw [← foldlM_nested]
    simp only [Dim.iterate_eq nx, Dim.iterate_eq ny, Dim.iterate_eq nz, at_some (r := ⟨some ab, [ax, ay, az]⟩) rfl,
      at_some (r := ⟨some cb, [x, y, z]⟩) rfl, Option.bind_eq_bind, Option.bind_some]
    refine foldlM_same _ fun m k hk => ?_
    rw [← foldlM_nested]
    refine foldlM_same _ fun m j hj => ?_
    rw [List.foldlM_map]
    refine foldlM_same _ fun m i hi => ?_
    have hb : InBox [x, y, z] [i, j, k] := ⟨mem_ints.1 hi, mem_ints.1 hj, mem_ints.1 hk, trivial⟩
    rw [memcpy_ok]
    · simp only [Option.pure_def, Option.some.injEq]
      funext q
      unfold Mem.set
      by_cases hq : q = cb + offsetOf [x, y, z] [i, j, k]
      · rw [if_pos hq, if_pos (by omega), hq, sub_self, add_zero]
      · rw [if_neg hq, if_neg (by omega)]
    · intro k1 k2 g1 g2 g3 g4 e
      dsimp only at g2 g4 e
      exact hdis _ _ (hin _ hb) hb (by omega)
  · intro t ht
    simp only [List.mem_flatMap, List.mem_map] at ht
    obtain ⟨k, hk, j, hj, i, hi, rfl⟩ := ht
    exact hblk i j k ⟨mem_ints.1 hi, mem_ints.1 hj, mem_ints.1 hk, trivial⟩
  · intro i hi
    match i, hi with
    | [i, j, k], hi =>
      simp only [InBox] at hi
      refine ⟨_, List.mem_flatMap.2 ⟨k, mem_ints.2 hi.2.2.1, List.mem_flatMap.2 ⟨j, mem_ints.2 hi.2.1,
        List.mem_map.2 ⟨i, mem_ints.2 hi.1, rfl⟩⟩⟩, ?_, ?_⟩ <;> simp only <;> omega

private theorem dense_injective (w h d : Int) (s : Shape) (hs : s = [⟨0, w, 1⟩, ⟨0, h, w⟩, ⟨0, d, w * h⟩]) : Injective s := by
  subst hs
  intro i j hi hj e
  match i, j, hi, hj with
  | [x, y, z], [x', y', z'], hi, hj =>
    simp only [InBox, offsetOf, zero_add, sub_zero, mul_one, add_zero, and_true] at hi hj e
    have hw0 : 0 < w := by omega
    have hh0 : 0 < h := by omega
    have e1 : x + w * (y + h * z) = x' + w * (y' + h * z') := by linear_combination e
    have m1 := congrArg (· % w) e1
    simp only [Int.add_mul_emod_self_left, Int.emod_eq_of_lt hi.1.1 hi.1.2, Int.emod_eq_of_lt hj.1.1 hj.1.2] at m1
    subst m1
    have e2 : y + h * z = y' + h * z' := mul_left_cancel₀ hw0.ne' (by linear_combination e1)
    have m2 := congrArg (· % h) e2
    simp only [Int.add_mul_emod_self_left, Int.emod_eq_of_lt hi.2.1.1 hi.2.1.2, Int.emod_eq_of_lt hj.2.1.1 hj.2.1.2] at m2
    subst m2
    have e3 : z = z' := mul_left_cancel₀ hh0.ne' (by linear_combination e2)
    rw [e3]

private theorem dense_offset (w h d : Int) (hw : 0 ≤ w) (hh : 0 ≤ h) (s : Shape) (hs : s = [⟨0, w, 1⟩, ⟨0, h, w⟩, ⟨0, d, w * h⟩])
    {i : Index} (hi : InBox s i) : 0 ≤ offsetOf s i ∧ offsetOf s i < w * h * d := by
  subst hs
  match i, hi with
  | [x, y, z], hi =>
    simp only [InBox] at hi
    simp only [offsetOf]
    have a1 : z + 1 ≤ d := by omega
    have a2 : y + 1 ≤ h := by omega
    have b1 := mul_le_mul_of_nonneg_left a1 (mul_nonneg hw hh)
    have b2 := mul_le_mul_of_nonneg_left a2 hw
    constructor <;> nlinarith [mul_nonneg hi.2.1.1 hw, mul_nonneg hi.2.2.1.1 (mul_nonneg hw hh)]

/-- C107: one `memcpy` of a dense array does what `copy` does. -/
theorem C107_whole (w h d : Int) (hw : 0 ≤ w) (hh : 0 ≤ h) (hd : 0 ≤ d) (s : Shape) (hs : s = [⟨0, w, 1⟩, ⟨0, h, w⟩, ⟨0, d, w * h⟩])
    (hdis : DisjointElems s ab s cb) (m : Mem α) :
    memcpyWhole ⟨some ab, s⟩ ⟨some cb, s⟩ m = some (copy id ⟨some ab, s⟩ ⟨some cb, s⟩ m) := by
  have hn : NonNeg s := by subst hs; intro e he; simp at he; rcases he with rfl | rfl | rfl <;> assumption
  have hinj := dense_injective w h d s hs
  have hsize : (s.size : Int) = w * h * d := by
    subst hs
    have : (0 : Int) ≤ w * h * d := by positivity
    simp only [Shape.size, Shape.extents, List.map_cons, List.map_nil, product]
    have e : w * (h * (d * 1)) = w * h * d := by ring
    rw [e, if_neg (by omega), Int.toNat_of_nonneg this]
  rw [← blocks_copy (a := ⟨some ab, s⟩) (c := ⟨some cb, s⟩) rfl rfl rfl hn (fun _ h => h) hinj hdis [(cb, ab, w * h * d)] ?_ ?_ m]
  · unfold runBlocks memcpyWhole
    rw [at_some (r := ⟨some cb, s⟩) rfl, at_some (r := ⟨some ab, s⟩) rfl]
    have : offsetOf s [0, 0, 0] = 0 := by subst hs; simp [offsetOf]
    simp only [this, add_zero, hsize, Option.bind_eq_bind, Option.bind_some, List.foldlM_cons, List.foldlM_nil, Option.pure_def,
      Option.bind_fun_some]
  · subst hs
    intro t ht k h1 h2
    rw [List.mem_singleton] at ht
    subst ht
    simp only at h2
    have hwh : 0 < w * h := by
      rcases (mul_nonneg hw hh).lt_or_eq with g | g
      · exact g
      · rw [← g, zero_mul] at h2; omega
    have hw0 : 0 < w := by
      rcases hw.lt_or_eq with g | g
      · exact g
      · rw [← g, zero_mul] at hwh; omega
    have hh0 : 0 < h := pos_of_mul_pos_right hwh hw
    have e1 := Int.emod_add_mul_ediv k w
    have e2 := Int.emod_add_mul_ediv (k / w) h
    have q0 := Int.ediv_nonneg h1 hw
    have q1 := Int.ediv_nonneg q0 hh
    have q2 : k / w < d * h := Int.ediv_lt_of_lt_mul hw0 (by linarith)
    have q3 : k / w / h < d := Int.ediv_lt_of_lt_mul hh0 q2
    have r0 := Int.emod_nonneg k hw0.ne'
    have r1 := Int.emod_lt_of_pos k hw0
    have r2 := Int.emod_nonneg (k / w) hh0.ne'
    have r3 := Int.emod_lt_of_pos (k / w) hh0
    refine ⟨[k % w, k / w % h, k / w / h], ⟨⟨r0, by simpa using r1⟩, ⟨r2, by simpa using r3⟩, ⟨q1, by simpa using q3⟩, trivial⟩, ?_, ?_⟩ <;>
      simp only [offsetOf] <;> linear_combination -e1 - w * e2
  · subst hs
    intro i hi
    match i, hi with
    | [x, y, z], hi =>
      simp only [InBox] at hi
      refine ⟨_, List.mem_singleton.2 rfl, ?_, ?_⟩ <;> simp only [offsetOf]
      · nlinarith [mul_nonneg hi.2.1.1 hw, mul_nonneg hi.2.2.1.1 (mul_nonneg hw hh)]
      · have a1 : z + 1 ≤ d := by omega
        have a2 : y + 1 ≤ h := by omega
        have b1 := mul_le_mul_of_nonneg_left a1 (mul_nonneg hw hh)
        have b2 := mul_le_mul_of_nonneg_left a2 hw
        nlinarith

end

section
variable {a b c : ArrayRef} {ab bb cb : Int}

private theorem copy_twice (ha : a.base = some ab) (hc : c.base = some cb) (hlen : List.length a.shape = c.shape.length)
    (hn : NonNeg c.shape) (hin : ∀ i, InBox c.shape i → InBox a.shape i) (hinj : Injective c.shape)
    (hdis : DisjointElems a.shape ab c.shape cb) (m : Mem α) : copy id a c (copy id a c m) = copy id a c m := by
  obtain ⟨g1, g2⟩ := C15_copy id a c ab cb ha hc hlen hn hin hinj hdis m
  obtain ⟨f1, f2⟩ := C15_copy id a c ab cb ha hc hlen hn hin hinj hdis (copy id a c m)
  funext x
  by_cases hx : ∃ i, InBox c.shape i ∧ x = cb + offsetOf c.shape i
  · obtain ⟨i, hi, rfl⟩ := hx
    rw [f1 i hi, g1 i hi, g2 _ fun j hj e => hdis i j (hin i hi) hj e]
  · exact f2 x fun i hi e => hx ⟨i, hi, e⟩

/-- C107: calling the copy again, as `benchmark` does, changes nothing. -/
theorem C107_repeat (ha : a.base = some ab) (hc : c.base = some cb) (hlen : List.length a.shape = c.shape.length)
    (hn : NonNeg c.shape) (hin : ∀ i, InBox c.shape i → InBox a.shape i) (hinj : Injective c.shape)
    (hdis : DisjointElems a.shape ab c.shape cb) (op : Mem α → Option (Mem α)) (hop : ∀ m, op m = some (copy id a c m)) (n : Nat)
    (m : Mem α) : repeatOp op (n + 1) m = some (copy id a c m) := by
  induction n generalizing m with
  | zero => simp [repeatOp, hop]
  | succ n ih =>
    rw [repeatOp, hop]
    simp only [Option.bind_eq_bind, Option.bind_some]
    rw [ih, copy_twice ha hc hlen hn hin hinj hdis]

/-- C107: a test that compares `copy` with code that copies too ends, for all sizes, crops and layouts, and passes exactly if the
times compare as it expects: no matter how often `benchmark` calls the two, both arrays have the pattern. -/
theorem C107_test [DecidableEq α] {D : Type} (lt : D → D → Bool) (factor : D → D) (cast : Int → α) (add : α → α → α) (zero : α)
    (hz : ∀ v, add v zero = v) (other : Mem α → Option (Mem α)) (hother : ∀ m, other m = some (copy id a c m))
    (ha : a.base = some ab) (hb : b.base = some bb) (hc : c.base = some cb) (hbc : b.shape = c.shape)
    (han : NonNeg a.shape) (hai : Injective a.shape) (h5 : a.shape.length ≤ 5) (hlen : List.length a.shape = c.shape.length)
    (hn : NonNeg c.shape) (hin : ∀ i, InBox c.shape i → InBox a.shape i) (hinj : Injective c.shape)
    (dab : DisjointElems a.shape ab b.shape bb) (dac : DisjointElems a.shape ab c.shape cb) (calls1 calls2 : Nat)
    (time1 time2 : D) (m : Mem α) :
    ∃ m', copyTest lt factor cast add zero other a b c calls1 calls2 time1 time2 m =
        some (m', if lt time1 (factor time2) then .passed else .failed "time") ∧
      ∀ i, InBox c.shape i → m' (cb + offsetOf c.shape i) = cast (patternNumber i) := by
  obtain ⟨m0, e0, p0, -⟩ := C106_fill ha han hai h5 cast add zero m
  have hbn : NonNeg b.shape := hbc ▸ hn
  have hbl : List.length a.shape = b.shape.length := by rw [hbc]; exact hlen
  have hbin : ∀ i, InBox b.shape i → InBox a.shape i := by rw [hbc]; exact hin
  have hbj : Injective b.shape := by rw [hbc]; exact hinj
  have has := (C90_copy a b hbl hbn).2 (.inr ⟨hbin, by simp [ha], by simp [hb]⟩)
  have hz0 : ∀ {s : Shape} {i : Index}, InBox s i → List.zipWith (· + ·) i (s.map fun _ => (0 : Int)) = i := by
    intro s i hi
    rw [show (s.map fun _ => (0 : Int)) = i.map fun _ => 0 by rw [List.map_const', List.map_const', inBox_length hi]]
    clear hi
    induction i with
    | nil => rfl
    | cons x i ih => rw [List.map_cons, List.zipWith_cons_cons, ih, add_zero]
  have e1 := C107_repeat ha hb hbl hbn hbin hbj dab (fun m => if copyAsserts a b then some (copy id a b m) else none)
    (fun m => by rw [if_pos has]) calls1 m0
  obtain ⟨g1, g2⟩ := C15_copy id a b ab bb ha hb hbl hbn hbin hbj dab m0
  obtain ⟨r1, c1, hr1⟩ := C106_check hb hbn (by omega) cast (b.shape.map fun _ => 0) (by simp) (copy id a b m0)
  have t1 : r1 = true := hr1.2 fun i hi => by rw [g1 i hi, id, p0 i (hbin i hi), hz, hz0 hi]
  have e2 := C107_repeat ha hc hlen hn hin hinj dac other hother calls2 (copy id a b m0)
  obtain ⟨f1, f2⟩ := C15_copy id a c ab cb ha hc hlen hn hin hinj dac (copy id a b m0)
  have hv : ∀ i, InBox c.shape i → copy id a c (copy id a b m0) (cb + offsetOf c.shape i) = cast (patternNumber i) := fun i hi => by
    rw [f1 i hi, id, g2 _ fun j hj e => dab i j (hin i hi) hj e, p0 i (hin i hi), hz]
  obtain ⟨r2, c2, hr2⟩ := C106_check hc hn (by omega) cast (c.shape.map fun _ => 0) (by simp) (copy id a c (copy id a b m0))
  have t2 : r2 = true := hr2.2 fun i hi => by rw [hv i hi, hz0 hi]
  subst t1 t2
  refine ⟨copy id a c (copy id a b m0), ?_, hv⟩
  unfold copyTest
  simp only [e0, e1, c1, e2, c2, Option.bind_eq_bind, Option.bind_some, if_true, Option.pure_def]

/-- C107: assigning to all elements by `for_each_index` and by `for_each_value` gives the same memory, for all ranks and layouts,
aliased ones included. -/
theorem C107_for_each_value (ha : a.base = some ab) (hn : NonNeg a.shape) (v : α) (m : Mem α) :
    setByIndex a v m = some (setByValue a v m) ∧
    (∀ i, InBox a.shape i → setByValue a v m (ab + offsetOf a.shape i) = v) ∧
    ∀ x, (∀ i, InBox a.shape i → x ≠ ab + offsetOf a.shape i) → setByValue a v m x = m x := by
  have hm := (C14_calls a ab ha hn).2
  have hv : ∀ x, setByValue a v m x = if x ∈ a.forEachValue then v else m x := fun x => foldl_set_const _ v m x
  refine ⟨?_, fun i hi => by rw [hv, if_pos ((hm _).2 ⟨i, hi, rfl⟩)], fun x hx => by
    rw [hv, if_neg fun h => ?_]
    obtain ⟨i, hi, e⟩ := (hm x).1 h
    exact hx i hi e⟩
  have key : ∀ (l : List Index) (m : Mem α), l.foldlM (fun m i => (a.at_ i).bind fun p => some (m.set p v)) m =
      some ((l.map fun i => ab + offsetOf a.shape i).foldl (fun m p => m.set p v) m) := by
    intro l
    induction l with
    | nil => intro m; rfl
    | cons i l ih =>
      intro m
      rw [List.foldlM_cons, at_some ha]
      exact ih _
  unfold setByIndex
  rw [forEachIndex_eq hn]
  simp only [Option.bind_eq_bind, Option.bind_some, Option.pure_def]
  rw [key]
  congr 1
  funext x
  rw [foldl_set_const, hv]
  refine if_congr ?_ rfl rfl
  rw [hm, List.mem_map]
  simp only [mem_boxList]
  exact ⟨fun ⟨i, hi, e⟩ => ⟨i, hi, e.symm⟩, fun ⟨i, hi, e⟩ => ⟨i, hi, e.symm⟩⟩

end

/-- C107: the test of test/performance.cpp:22-36, for all sizes. -/
theorem C107_dense_test {D : Type} (lt : D → D → Bool) (factor : D → D) (w h d : Int) (hw : 0 ≤ w) (hh : 0 ≤ h) (hd : 0 ≤ d)
    (s : Shape) (hs : s = [⟨0, w, 1⟩, ⟨0, h, w⟩, ⟨0, d, w * h⟩]) (ab bb cb : Int) (hab : ab + w * h * d ≤ bb)
    (hac : ab + w * h * d ≤ cb) (calls1 calls2 : Nat) (time1 time2 : D) (m : Mem Int) :
    ∃ m', copyTest lt factor id (· + ·) 0 (memcpyWhole ⟨some ab, s⟩ ⟨some cb, s⟩) ⟨some ab, s⟩ ⟨some bb, s⟩ ⟨some cb, s⟩ calls1 calls2
        time1 time2 m = some (m', if lt time1 (factor time2) then .passed else .failed "time") ∧
      ∀ x y z, 0 ≤ x → x < w → 0 ≤ y → y < h → 0 ≤ z → z < d →
        m' (cb + (x + w * y + w * h * z)) = x + 30 * y + 1000 * z := by
  have hn : NonNeg s := by subst hs; intro e he; simp at he; rcases he with rfl | rfl | rfl <;> assumption
  have hinj := dense_injective w h d s hs
  have hdis : ∀ tb, ab + w * h * d ≤ tb → DisjointElems s ab s tb := by
    intro tb htb i j hi hj e
    have h1 := dense_offset w h d hw hh s hs hi
    have h2 := dense_offset w h d hw hh s hs hj
    omega
  obtain ⟨m', e, hv⟩ := C107_test (a := ⟨some ab, s⟩) (b := ⟨some bb, s⟩) (c := ⟨some cb, s⟩) lt factor id (· + ·) 0 (by simp) _
    (C107_whole w h d hw hh hd s hs (hdis cb hac)) rfl rfl rfl rfl hn hinj (by subst hs; simp) rfl hn (fun _ h => h) hinj
    (hdis bb hab) (hdis cb hac) calls1 calls2 time1 time2 m
  refine ⟨m', e, fun x y z x0 x1 y0 y1 z0 z1 => ?_⟩
  have := hv [x, y, z] (by subst hs; exact ⟨⟨x0, by simpa using x1⟩, ⟨y0, by simpa using y1⟩, ⟨z0, by simpa using z1⟩, trivial⟩)
  subst hs
  simp only [offsetOf, patternNumber, id] at this
  rw [← this]
  congr 1
  ring

/-- C107, negative part: the rows must be dense.  With a gap between pixels, the `memcpy` of test/performance.cpp:72 copies other elements
than `copy` does. -/
theorem C107_gap_counterexample :
    ∃ m : Mem Int, memcpyChunkyRows ⟨some 0, [⟨0, 2, 2⟩, ⟨0, 1, 4⟩, ⟨0, 1, 1⟩]⟩ ⟨some 10, [⟨0, 2, 2⟩, ⟨0, 1, 4⟩, ⟨0, 1, 1⟩]⟩ m ≠
      some (copy id ⟨some 0, [⟨0, 2, 2⟩, ⟨0, 1, 4⟩, ⟨0, 1, 1⟩]⟩ ⟨some 10, [⟨0, 2, 2⟩, ⟨0, 1, 4⟩, ⟨0, 1, 1⟩]⟩ m) := by
  refine ⟨id, fun h => ?_⟩
  have := congrArg (Option.map fun m => m 12) h
  revert this
  simp (disch := decide) only [memcpyChunkyRows, Dim.iterate_eq, Option.bind_eq_bind, Option.bind_some]
  decide +kernel

-- A crop of two rows and two columns, in memory at 100, of an array of 4x3x1.
example : (memcpyRows ⟨some 0, [⟨0, 4, 1⟩, ⟨0, 3, 4⟩, ⟨0, 1, 12⟩]⟩ ⟨some 100, [⟨1, 2, 1⟩, ⟨1, 2, 2⟩, ⟨0, 1, 4⟩]⟩ id).map
    (fun m => [99, 100, 101, 102, 103, 104].map m) = some [99, 5, 6, 9, 10, 104] := by
  simp (disch := decide) only [memcpyRows, Dim.iterate_eq, Option.bind_eq_bind, Option.bind_some]
  decide +kernel
-- Pixels of three channels: the crop of the second and third of three pixels of one row.
example : (memcpyChunkyRows ⟨some 0, [⟨0, 3, 3⟩, ⟨0, 1, 9⟩, ⟨0, 3, 1⟩]⟩ ⟨some 100, [⟨1, 2, 3⟩, ⟨0, 1, 6⟩, ⟨0, 3, 1⟩]⟩ id).map
    (fun m => [99, 100, 101, 102, 103, 104, 105, 106].map m) = some [99, 3, 4, 5, 6, 7, 8, 106] := by
  simp (disch := decide) only [memcpyChunkyRows, Dim.iterate_eq, Option.bind_eq_bind, Option.bind_some]
  decide +kernel
-- Overlapping regions are undefined.
example : (memcpyWhole ⟨some 0, [⟨0, 2, 1⟩, ⟨0, 2, 2⟩, ⟨0, 1, 4⟩]⟩ ⟨some 3, [⟨0, 2, 1⟩, ⟨0, 2, 2⟩, ⟨0, 1, 4⟩]⟩ (id : Mem Int)).isNone := by
  decide +kernel
-- The test of dense arrays, with times 2 and 1: `2 < 1 * 1.5` is false.
example (m : Mem Int) : ∃ m', copyTest (fun s t : Nat => decide (s < t)) (fun t => t * 3 / 2) id (· + ·) 0
      (memcpyWhole ⟨some 0, [⟨0, 100, 1⟩, ⟨0, 100, 100⟩, ⟨0, 100, 10000⟩]⟩ ⟨some 2000000, [⟨0, 100, 1⟩, ⟨0, 100, 100⟩, ⟨0, 100, 10000⟩]⟩)
      ⟨some 0, [⟨0, 100, 1⟩, ⟨0, 100, 100⟩, ⟨0, 100, 10000⟩]⟩ ⟨some 1000000, [⟨0, 100, 1⟩, ⟨0, 100, 100⟩, ⟨0, 100, 10000⟩]⟩
      ⟨some 2000000, [⟨0, 100, 1⟩, ⟨0, 100, 100⟩, ⟨0, 100, 10000⟩]⟩ 7 8 2 1 m = some (m', .failed "time") := by
  obtain ⟨m', e, -⟩ := C107_dense_test (fun s t : Nat => decide (s < t)) (fun t => t * 3 / 2) 100 100 100 (by norm_num) (by norm_num)
    (by norm_num) _ rfl 0 1000000 2000000 (by norm_num) (by norm_num) 7 8 2 1 m
  exact ⟨m', by simpa using e⟩
-- An array with a stride of 0: both ways set its one element.
example : (setByIndex ⟨some 5, [⟨0, 2, 0⟩]⟩ 3 (id : Mem Int)).map (fun m => [4, 5, 6].map m) = some [4, 3, 6] := by
  rw [(C107_for_each_value (a := ⟨some 5, [⟨0, 2, 0⟩]⟩) rfl (by simp [NonNeg]) 3 id).1]
  decide +kernel

-- test/performance.cpp:38-59.
example (lt : Nat → Nat → Bool) (factor : Nat → Nat) (n1 n2 t1 t2 : Nat) (m : Mem Int) :
    ∃ m', copyTest lt factor id (· + ·) 0 (memcpyRows ⟨some 0, [⟨0, 100, 1⟩, ⟨0, 100, 100⟩, ⟨0, 100, 10000⟩]⟩ ⟨some 2000000, [⟨1, 98, 1⟩, ⟨1, 98, 98⟩, ⟨1, 98, 9604⟩]⟩) ⟨some 0, [⟨0, 100, 1⟩, ⟨0, 100, 100⟩, ⟨0, 100, 10000⟩]⟩ ⟨some 1000000, [⟨1, 98, 1⟩, ⟨1, 98, 98⟩, ⟨1, 98, 9604⟩]⟩
      ⟨some 2000000, [⟨1, 98, 1⟩, ⟨1, 98, 98⟩, ⟨1, 98, 9604⟩]⟩ n1 n2 t1 t2 m = some (m', if lt t1 (factor t2) then .passed else .failed "time") := by
  have inj : ∀ {s : Shape}, s = [⟨0, 100, 1⟩, ⟨0, 100, 100⟩, ⟨0, 100, 10000⟩] ∨ s = [⟨1, 98, 1⟩, ⟨1, 98, 98⟩, ⟨1, 98, 9604⟩] → Injective s := by
    rintro s (rfl | rfl) i j hi hj e <;>
    · match i, j, hi, hj with
      | [x, y, z], [x', y', z'], hi, hj =>
        simp only [InBox, offsetOf] at hi hj e
        have h1 : x = x' := by omega
        have h2 : y = y' := by omega
        have h3 : z = z' := by omega
        rw [h1, h2, h3]
  have sub : ∀ i, InBox [⟨1, 98, 1⟩, ⟨1, 98, 98⟩, ⟨1, 98, 9604⟩] i → InBox [⟨0, 100, 1⟩, ⟨0, 100, 100⟩, ⟨0, 100, 10000⟩] i := by
    intro i hi
    match i, hi with
    | [x, y, z], hi => simp only [InBox, and_true] at hi ⊢; omega
  have dis : ∀ tb : Int, 1000000 ≤ tb → DisjointElems [⟨0, 100, 1⟩, ⟨0, 100, 100⟩, ⟨0, 100, 10000⟩] 0 [⟨1, 98, 1⟩, ⟨1, 98, 98⟩, ⟨1, 98, 9604⟩] tb := by
    intro tb htb i j hi hj e
    match i, j, hi, hj with
    | [x, y, z], [x', y', z'], hi, hj => simp only [InBox, offsetOf] at hi hj e; omega
  obtain ⟨m', e, -⟩ := C107_test (a := ⟨some 0, [⟨0, 100, 1⟩, ⟨0, 100, 100⟩, ⟨0, 100, 10000⟩]⟩) (b := ⟨some 1000000, [⟨1, 98, 1⟩, ⟨1, 98, 98⟩, ⟨1, 98, 9604⟩]⟩) (c := ⟨some 2000000, [⟨1, 98, 1⟩, ⟨1, 98, 98⟩, ⟨1, 98, 9604⟩]⟩) lt factor id (· + ·) 0
    (by simp) _ (C107_rows _ _ _ _ _ _ rfl rfl (by simp [NonNeg]) sub (inj (.inr rfl)) (dis _ (by norm_num))) rfl rfl rfl rfl
    (by simp [NonNeg]) (inj (.inl rfl)) (by simp) rfl (by simp [NonNeg]) sub (inj (.inr rfl)) (dis _ le_rfl) (dis _ (by norm_num))
    n1 n2 t1 t2 m
  exact ⟨m', e⟩
-- test/performance.cpp:61-80.
example (lt : Nat → Nat → Bool) (factor : Nat → Nat) (n1 n2 t1 t2 : Nat) (m : Mem Int) :
    ∃ m', copyTest lt factor id (· + ·) 0 (memcpyChunkyRows ⟨some 0, [⟨0, 100, 3⟩, ⟨0, 100, 300⟩, ⟨0, 3, 1⟩]⟩ ⟨some 2000000, [⟨1, 98, 3⟩, ⟨1, 98, 294⟩, ⟨0, 3, 1⟩]⟩) ⟨some 0, [⟨0, 100, 3⟩, ⟨0, 100, 300⟩, ⟨0, 3, 1⟩]⟩ ⟨some 1000000, [⟨1, 98, 3⟩, ⟨1, 98, 294⟩, ⟨0, 3, 1⟩]⟩
      ⟨some 2000000, [⟨1, 98, 3⟩, ⟨1, 98, 294⟩, ⟨0, 3, 1⟩]⟩ n1 n2 t1 t2 m = some (m', if lt t1 (factor t2) then .passed else .failed "time") := by
  have inj : ∀ {s : Shape}, s = [⟨0, 100, 3⟩, ⟨0, 100, 300⟩, ⟨0, 3, 1⟩] ∨ s = [⟨1, 98, 3⟩, ⟨1, 98, 294⟩, ⟨0, 3, 1⟩] → Injective s := by
    rintro s (rfl | rfl) i j hi hj e <;>
    · match i, j, hi, hj with
      | [x, y, z], [x', y', z'], hi, hj =>
        simp only [InBox, offsetOf] at hi hj e
        have h1 : x = x' := by omega
        have h2 : y = y' := by omega
        have h3 : z = z' := by omega
        rw [h1, h2, h3]
  have sub : ∀ i, InBox [⟨1, 98, 3⟩, ⟨1, 98, 294⟩, ⟨0, 3, 1⟩] i → InBox [⟨0, 100, 3⟩, ⟨0, 100, 300⟩, ⟨0, 3, 1⟩] i := by
    intro i hi
    match i, hi with
    | [x, y, z], hi => simp only [InBox, and_true] at hi ⊢; omega
  have dis : ∀ tb : Int, 1000000 ≤ tb → DisjointElems [⟨0, 100, 3⟩, ⟨0, 100, 300⟩, ⟨0, 3, 1⟩] 0 [⟨1, 98, 3⟩, ⟨1, 98, 294⟩, ⟨0, 3, 1⟩] tb := by
    intro tb htb i j hi hj e
    match i, j, hi, hj with
    | [x, y, z], [x', y', z'], hi, hj => simp only [InBox, offsetOf] at hi hj e; omega
  obtain ⟨m', e, -⟩ := C107_test (a := ⟨some 0, [⟨0, 100, 3⟩, ⟨0, 100, 300⟩, ⟨0, 3, 1⟩]⟩) (b := ⟨some 1000000, [⟨1, 98, 3⟩, ⟨1, 98, 294⟩, ⟨0, 3, 1⟩]⟩) (c := ⟨some 2000000, [⟨1, 98, 3⟩, ⟨1, 98, 294⟩, ⟨0, 3, 1⟩]⟩) lt factor id (· + ·) 0
    (by simp) _ (C107_chunky _ _ _ _ _ _ rfl rfl rfl rfl rfl rfl (by simp [NonNeg]) sub (inj (.inr rfl)) (dis _ (by norm_num))) rfl rfl rfl rfl
    (by simp [NonNeg]) (inj (.inl rfl)) (by simp) rfl (by simp [NonNeg]) sub (inj (.inr rfl)) (dis _ le_rfl) (dis _ (by norm_num))
    n1 n2 t1 t2 m
  exact ⟨m', e⟩
-- test/performance.cpp:82-104.
example (lt : Nat → Nat → Bool) (factor : Nat → Nat) (n1 n2 t1 t2 : Nat) (m : Mem Int) :
    ∃ m', copyTest lt factor id (· + ·) 0 (copyByLoops ⟨some 0, [⟨0, 100, 10000⟩, ⟨0, 100, 100⟩, ⟨0, 100, 1⟩]⟩ ⟨some 2000000, [⟨0, 100, 10000⟩, ⟨0, 100, 100⟩, ⟨0, 100, 1⟩]⟩) ⟨some 0, [⟨0, 100, 10000⟩, ⟨0, 100, 100⟩, ⟨0, 100, 1⟩]⟩ ⟨some 1000000, [⟨0, 100, 10000⟩, ⟨0, 100, 100⟩, ⟨0, 100, 1⟩]⟩
      ⟨some 2000000, [⟨0, 100, 10000⟩, ⟨0, 100, 100⟩, ⟨0, 100, 1⟩]⟩ n1 n2 t1 t2 m = some (m', if lt t1 (factor t2) then .passed else .failed "time") := by
  have inj : ∀ {s : Shape}, s = [⟨0, 100, 10000⟩, ⟨0, 100, 100⟩, ⟨0, 100, 1⟩] ∨ s = [⟨0, 100, 10000⟩, ⟨0, 100, 100⟩, ⟨0, 100, 1⟩] → Injective s := by
    rintro s (rfl | rfl) i j hi hj e <;>
    · match i, j, hi, hj with
      | [x, y, z], [x', y', z'], hi, hj =>
        simp only [InBox, offsetOf] at hi hj e
        have h1 : x = x' := by omega
        have h2 : y = y' := by omega
        have h3 : z = z' := by omega
        rw [h1, h2, h3]
  have sub : ∀ i, InBox [⟨0, 100, 10000⟩, ⟨0, 100, 100⟩, ⟨0, 100, 1⟩] i → InBox [⟨0, 100, 10000⟩, ⟨0, 100, 100⟩, ⟨0, 100, 1⟩] i := by
    intro i hi
    match i, hi with
    | [x, y, z], hi => simp only [InBox, and_true] at hi ⊢; omega
  have dis : ∀ tb : Int, 1000000 ≤ tb → DisjointElems [⟨0, 100, 10000⟩, ⟨0, 100, 100⟩, ⟨0, 100, 1⟩] 0 [⟨0, 100, 10000⟩, ⟨0, 100, 100⟩, ⟨0, 100, 1⟩] tb := by
    intro tb htb i j hi hj e
    match i, j, hi, hj with
    | [x, y, z], [x', y', z'], hi, hj => simp only [InBox, offsetOf] at hi hj e; omega
  obtain ⟨m', e, -⟩ := C107_test (a := ⟨some 0, [⟨0, 100, 10000⟩, ⟨0, 100, 100⟩, ⟨0, 100, 1⟩]⟩) (b := ⟨some 1000000, [⟨0, 100, 10000⟩, ⟨0, 100, 100⟩, ⟨0, 100, 1⟩]⟩) (c := ⟨some 2000000, [⟨0, 100, 10000⟩, ⟨0, 100, 100⟩, ⟨0, 100, 1⟩]⟩) lt factor id (· + ·) 0
    (by simp) _ (C107_loops _ _ _ _ _ _ (by simp [NonNeg]) sub (inj (.inr rfl)) (dis _ (by norm_num))) rfl rfl rfl rfl
    (by simp [NonNeg]) (inj (.inl rfl)) (by simp) rfl (by simp [NonNeg]) sub (inj (.inr rfl)) (dis _ le_rfl) (dis _ (by norm_num))
    n1 n2 t1 t2 m
  exact ⟨m', e⟩

end Nda
