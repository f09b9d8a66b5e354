import Verif.Lemmas.MatrixTiles
/-
Lemmas about matrix multiplication in z-order (C52).
-/
namespace Nda
open Spec Classical
variable {F : Type} {o : ScalarOps F}

theorem foldl_ite_count {β : Type} {P : β → Prop} [DecidablePred P] {v : F} : ∀ {l : List β} {s : F},
    l.foldl (fun s x => if P x then o.add s v else s) s = addTimes o (l.countP (fun x => decide (P x))) v s
  | [], _ => rfl
  | x :: l, s => by
    rw [List.foldl_cons, foldl_ite_count]
    by_cases h : P x
    · rw [if_pos h, List.countP_cons_of_pos (by simpa using h)]
      unfold addTimes
      rw [Function.iterate_succ_apply]
    · rw [if_neg h, List.countP_cons_of_neg (by simpa using h)]

theorem countP_range_eq {q : Nat} {c : Nat} {P : Nat → Bool} (h : ∀ k < q, P k = true ↔ k = c) :
    (List.range q).countP P = if c < q then 1 else 0 := by
  have : (List.range q).countP P = (List.range q).count c := by
    unfold List.count
    refine List.countP_congr fun k hk => ?_
    rw [h k (List.mem_range.1 hk)]
    simp
  rw [this]
  split
  · rename_i hc
    exact List.count_eq_one_of_mem List.nodup_range (List.mem_range.2 hc)
  · rename_i hc
    exact List.count_eq_zero.2 (by simpa using hc)

/-- How many intervals of `split<N>` have index `x`. -/
theorem countP_tiles {N : Int} {d : SDim} {x : Int} (hN : 0 < N) (hd : N ≤ d.val.extent) (hx : inDim d x) :
    (List.range (pieces N d.val.extent)).countP (fun k : Nat => decide (InInterval
      ⟨min (d.val.min + N * k) (d.val.min + d.val.extent - N), N⟩ x)) = tileCount N d x := by
  unfold inDim at hx
  set r := d.val.extent with hr
  set u := x - d.val.min with hu
  have hq : pieces N r = ((r - 1) / N).toNat + 1 := by
    unfold pieces
    have : r + N - 1 = (r - 1) + 1 * N := by ring
    rw [this, Int.add_mul_ediv_right _ _ (by omega)]
    have : 0 ≤ (r - 1) / N := Int.ediv_nonneg (by omega) (by omega)
    omega
  have hq0 : 0 ≤ (r - 1) / N := Int.ediv_nonneg (by omega) (by omega)
  set q := (r - 1) / N with hqd
  have h1 : q * N ≤ r - 1 := Int.ediv_mul_le _ (by omega)
  have h2 : r - 1 < q * N + N := by
    have := Int.lt_ediv_add_one_mul_self (r - 1) hN
    rw [← hqd] at this
    linarith
  rw [hq, List.range_succ, List.countP_append]
  have e1 : (List.range q.toNat).countP (fun k : Nat => decide (InInterval
      ⟨min (d.val.min + N * k) (d.val.min + r - N), N⟩ x)) = if u < q * N then 1 else 0 := by
    rw [countP_range_eq (c := (u / N).toNat)]
    · refine if_congr ?_ rfl rfl
      have h3 : 0 ≤ u / N := Int.ediv_nonneg (by omega) (by omega)
      rw [← Int.ediv_lt_iff_lt_mul hN]
      omega
    · intro k hk
      have hk' : (k : Int) + 1 ≤ q := by omega
      have hkN : N * (k : Int) + N ≤ q * N := by nlinarith
      have h3 : 0 ≤ u / N := Int.ediv_nonneg (by omega) (by omega)
      have h4 : u / N * N ≤ u := Int.ediv_mul_le _ (by omega)
      have h5 : u < (u / N + 1) * N := Int.lt_ediv_add_one_mul_self u hN
      constructor
      · intro hin
        obtain ⟨h6, h7⟩ := of_decide_eq_true hin
        simp only at h6 h7
        have h6 : N * (k : Int) ≤ u := by omega
        have h7 : u < N * (k : Int) + N := by omega
        have : (k : Int) = u / N := by
          symm
          rw [Int.ediv_eq_iff_of_pos hN]
          constructor <;> nlinarith
        omega
      · intro hk2
        have hk3 : (k : Int) = u / N := by omega
        rw [hk3] at hkN ⊢
        have : N * (u / N) ≤ u := by linarith [mul_comm N (u / N)]
        have : u < N * (u / N) + N := by linarith [mul_comm N (u / N)]
        exact decide_eq_true ⟨by simp only; omega, by simp only; omega⟩
  have e2 : [q.toNat].countP (fun k : Nat => decide (InInterval
      ⟨min (d.val.min + N * k) (d.val.min + r - N), N⟩ x)) = if r - N ≤ u then 1 else 0 := by
    have hc : ((q.toNat : Nat) : Int) = q := Int.toNat_of_nonneg hq0
    have hqN : r - N ≤ N * q := by linarith [mul_comm N q]
    rw [List.countP_singleton]
    refine if_congr ?_ rfl rfl
    rw [hc]
    constructor
    · intro hin
      obtain ⟨h6, h7⟩ := of_decide_eq_true hin
      simp only at h6 h7
      omega
    · intro hin
      exact decide_eq_true ⟨by simp only; omega, by simp only; omega⟩
  rw [e1, e2]
  unfold tileCount
  rw [← hr, ← hu, ← hqd]
  by_cases c1 : u < q * N
  · by_cases c2 : r - N ≤ u
    · rw [if_pos c1, if_pos c2, if_pos ⟨c2, c1⟩]
    · rw [if_pos c1, if_neg c2, if_neg (fun h => c2 h.1)]
  · have c2 : r - N ≤ u := by omega
    rw [if_neg c1, if_pos c2, if_neg (fun h => c1 h.2)]

theorem countP_product {p q : Nat} {P Q : Nat → Bool} {γ : Type} (f : Nat → Nat → γ) (R : γ → Bool)
    (h : ∀ x y, R (f x y) = (P x && Q y)) :
    ((List.range p).flatMap fun x => (List.range q).map fun y => f x y).countP R =
      (List.range p).countP P * (List.range q).countP Q := by
  generalize List.range p = l
  induction l with
  | nil => simp
  | cons x l ih =>
    rw [List.flatMap_cons, List.countP_append, ih, List.countP_map]
    have : (R ∘ fun y => f x y) = fun y => P x && Q y := by funext y; exact h x y
    rw [this]
    cases hx : P x with
    | true => rw [List.countP_cons_of_pos hx]; simp; ring
    | false => rw [List.countP_cons_of_neg (by simp [hx])]; simp

/-- How many tiles have index `(x, y)`. -/
theorem countP_pairs {M N : Int} {d e : SDim} {x y : Int} (hM : 0 < M) (hd : M ≤ d.val.extent)
    (hN : 0 < N) (he : N ≤ e.val.extent) (hx : inDim d x) (hy : inDim e y)
    {l : List (Fin 2 → Int)} (hnd : l.Nodup)
    (hl : ∀ i, i ∈ l ↔ ∀ t, 0 ≤ i t ∧ i t < ![(splitStatic M d.val.toInterval).size, (splitStatic N e.val.toInterval).size] t) :
    l.countP (fun i => decide (InInterval ((splitStatic M d.val.toInterval).get (i 0)) x ∧
      InInterval ((splitStatic N e.val.toInterval).get (i 1)) y)) = tileCount M d x * tileCount N e y := by
  have hsM : (splitStatic M d.val.toInterval).size = pieces M d.val.extent := statSize hM (by show 0 ≤ d.val.extent; omega)
  have hsN : (splitStatic N e.val.toInterval).size = pieces N e.val.extent := statSize hN (by show 0 ≤ e.val.extent; omega)
  rw [hsM, hsN] at hl
  set L := (List.range (pieces M d.val.extent)).flatMap fun a : Nat => (List.range (pieces N e.val.extent)).map fun b : Nat =>
    (![(a : Int), (b : Int)] : Fin 2 → Int) with hL
  have hmem : ∀ i, i ∈ L ↔ i ∈ l := by
    intro i
    rw [hl, hL]
    simp only [List.mem_flatMap, List.mem_map, List.mem_range]
    constructor
    · rintro ⟨a, ha, b, hb, rfl⟩ t
      fin_cases t
      · simp; omega
      · simp; omega
    · intro h
      have h0 := h 0
      have h1 := h 1
      simp only [Matrix.cons_val_zero, Matrix.cons_val_one] at h0 h1
      refine ⟨(i 0).toNat, by omega, (i 1).toNat, by omega, ?_⟩
      funext t
      fin_cases t
      · simp; omega
      · simp; omega
  have hLnd : L.Nodup := by
    rw [hL, List.nodup_flatMap]
    constructor
    · intro a _
      refine List.Nodup.map ?_ List.nodup_range
      intro b b' h
      have := congrFun h 1
      simpa using this
    · refine List.Nodup.pairwise_of_forall_ne List.nodup_range ?_
      intro a _ a' _ hne
      intro i hi hi'
      obtain ⟨b, _, rfl⟩ := List.mem_map.1 hi
      obtain ⟨b', _, h⟩ := List.mem_map.1 hi'
      have := congrFun h 0
      simp at this
      omega
  have hperm : l.Perm L := (List.perm_ext_iff_of_nodup hnd hLnd).2 fun i => (hmem i).symm
  rw [hperm.countP_eq, hL, ← countP_tiles hM hd hx, ← countP_tiles hN he hy]
  have gM : ∀ k < pieces M d.val.extent, (splitStatic M d.val.toInterval).get k =
      ⟨min (d.val.min + M * k) (d.val.min + d.val.extent - M), M⟩ := by
    intro k hk
    unfold SplitResult.get
    rw [statGet hM hd hk]
    rfl
  have gN : ∀ k < pieces N e.val.extent, (splitStatic N e.val.toInterval).get k =
      ⟨min (e.val.min + N * k) (e.val.min + e.val.extent - N), N⟩ := by
    intro k hk
    unfold SplitResult.get
    rw [statGet hN he hk]
    rfl
  rw [← countP_product (P := fun k : Nat => decide (InInterval
      ⟨min (d.val.min + M * k) (d.val.min + d.val.extent - M), M⟩ x)) (Q := fun k : Nat => decide (InInterval
      ⟨min (e.val.min + N * k) (e.val.min + e.val.extent - N), N⟩ y)) (fun a b => (a, b))
    (fun ab : Nat × Nat => decide (InInterval
      ⟨min (d.val.min + M * ab.1) (d.val.min + d.val.extent - M), M⟩ x) && decide (InInterval
      ⟨min (e.val.min + N * ab.2) (e.val.min + e.val.extent - N), N⟩ y)) (fun _ _ => rfl)]
  rw [List.countP_flatMap, List.countP_flatMap]
  congr 1
  refine List.map_congr_left fun a ha => ?_
  simp only [Function.comp, List.countP_map]
  refine List.countP_congr fun b hb => ?_
  have ga := gM a (List.mem_range.1 ha)
  have gb := gN b (List.mem_range.1 hb)
  constructor
  · intro hin
    have hin : InInterval ((splitStatic M d.val.toInterval).get (a : Int)) x ∧
      InInterval ((splitStatic N e.val.toInterval).get (b : Int)) y := of_decide_eq_true hin
    rw [ga, gb] at hin
    exact Bool.and_eq_true_iff.2 ⟨decide_eq_true hin.1, decide_eq_true hin.2⟩
  · intro hin
    have hin := Bool.and_eq_true_iff.1 hin
    refine decide_eq_true ?_
    show InInterval ((splitStatic M d.val.toInterval).get (a : Int)) x ∧
      InInterval ((splitStatic N e.val.toInterval).get (b : Int)) y
    rw [ga, gb]
    exact ⟨of_decide_eq_true hin.1, of_decide_eq_true hin.2⟩

section
variable {A B C : Image2} {a b c buf tr tc : Int}

/-- All tiles, for one block of `k`. -/
theorem zStep_spec (h : Multipliable A B C a b c) (hb : BufferFree A B C a b c buf (tr * tc))
    (htr : 0 < tr) (htc : 0 < tc) (hi : tr ≤ C.i.val.extent) (hj : tc ≤ C.j.val.extent)
    {ko : Interval} (hk : 0 ≤ ko.extent) (hko : Within ko A.j)
    {r : Mem F} {W : Int → Int → F} (hW : IsTerm o A B C a b c r W) {mult : Int → Nat}
    (hmult : ∀ i j, inDim C.i i → inDim C.j j →
      mult (elementAddress C c i j) = tileCount tr C.i i * tileCount tc C.j j) (m : Mem F)
    (hm : ∀ p, Operands A B a b p → m p = r p) :
    ∃ m', forAllInZOrder2 (splitStatic tr C.i.val.toInterval) (splitStatic tc C.j.val.toInterval)
        (multiplyZTile o tr tc buf A B C ko) m = some m' ∧
      (∀ p, Operands A B a b p → m' p = r p) ∧
      ∀ p, ¬ (buf ≤ p ∧ p < buf + tr * tc) → m' p = if ElementOf C c p then
        (if ko.min = A.j.val.min then valueOf o ko W p else addTimes o (mult p) (valueOf o ko W p) (m p)) else m p := by
  set r1 := splitStatic tr C.i.val.toInterval with hr1
  set r2 := splitStatic tc C.j.val.toInterval with hr2
  have hs1 : r1.size = pieces tr C.i.val.extent := statSize htr (by show 0 ≤ C.i.val.extent; omega)
  have hs2 : r2.size = pieces tc C.j.val.extent := statSize htc (by show 0 ≤ C.j.val.extent; omega)
  have hpos : ∀ {n x : Int}, 0 < n → n ≤ x → 0 < pieces n x := by
    intro n x hn hx
    rw [pieces_step hn (by omega)]
    omega
  obtain ⟨l, e, hnd, hmem, -⟩ := C40_indices ![r1.size, r2.size] (by
    intro t
    fin_cases t
    · simpa [hs1] using hpos htr hi
    · simpa [hs2] using hpos htc hj)
  obtain ⟨ai, li, ei, hi1, hi2⟩ := splittable_pieces (debug := true) htr (Or.inl hi)
  obtain ⟨aj, lj, ej, hj1, hj2⟩ := splittable_pieces (debug := true) htc (Or.inl hj)
  have hli : ∀ k : Nat, (k : Int) < r1.size → r1.get k ∈ li := by
    intro k hk
    obtain ⟨l', e', h'⟩ := C26_static_random_access C.i.val.toInterval tr htr hi
    rw [ei] at e'
    cases e'
    exact List.mem_of_getElem? (h' k hk)
  have hlj : ∀ k : Nat, (k : Int) < r2.size → r2.get k ∈ lj := by
    intro k hk
    obtain ⟨l', e', h'⟩ := C26_static_random_access C.j.val.toInterval tc htc hj
    rw [ej] at e'
    cases e'
    exact List.mem_of_getElem? (h' k hk)
  have hget : ∀ i ∈ l, r1.get (i 0) ∈ li ∧ r2.get (i 1) ∈ lj := by
    intro i hil
    have h0 := (hmem i).1 hil 0
    have h1 := (hmem i).1 hil 1
    simp only [Matrix.cons_val_zero, Matrix.cons_val_one] at h0 h1
    have := hli (i 0).toNat (by omega)
    have := hlj (i 1).toNat (by omega)
    rw [Int.toNat_of_nonneg (by omega)] at *
    constructor <;> assumption
  have hw : ∀ i ∈ l, Within (r1.get (i 0)) C.i ∧ Within (r2.get (i 1)) C.j := fun i hil =>
    ⟨fun x hx => (hi2 x).2 ⟨_, (hget i hil).1, hx⟩, fun x hx => (hj2 x).2 ⟨_, (hget i hil).2, hx⟩⟩
  have hrect : ∀ i ∈ l, ∀ p, Rect (elementAddress C c) (r1.get (i 0)) (r2.get (i 1)) p → ElementOf C c p := by
    rintro i hil p ⟨x, y, hx, hy, rfl⟩
    exact ⟨x, y, (hw i hil).1 x hx, (hw i hil).2 y hy, rfl⟩
  have hop : ∀ p, ElementOf C c p → ¬ Operands A B a b p := by
    rintro p ⟨i, j, h1, h2, rfl⟩
    exact h.mulView.not_operand h1 h2
  have hsep : ∀ p, Operands A B a b p → ¬ (buf ≤ p ∧ p < buf + tr * tc) := by
    rintro p (hp | hp) hbuf
    · exact (hb p hbuf.1 hbuf.2).1 hp
    · exact (hb p hbuf.1 hbuf.2).2.1 hp
  obtain ⟨m', e', hm', h'⟩ := run_blocks
    (fun m (i : Fin 2 → Int) => multiplyZTile o tr tc buf A B C ko (r1.get (i 0)) (r2.get (i 1)) m)
    (fun i p => Rect (elementAddress C c) (r1.get (i 0)) (r2.get (i 1)) p)
    (fun _ p s => if ko.min = A.j.val.min then valueOf o ko W p else o.add s (valueOf o ko W p))
    (Operands A B a b) (fun p => buf ≤ p ∧ p < buf + tr * tc) r l
    (fun i hil m1 hm1 => multiplyZTile_spec h hb htr htc (hi1 _ (hget i hil).1) (hj1 _ (hget i hil).2)
      (hw i hil).1 (hw i hil).2 hk hko hW m1 hm1)
    (fun i hil p hp => ⟨fun hR => hop p (hrect i hil p hR) hp, hsep p hp⟩) m hm
  refine ⟨m', ?_, hm', fun p hp => ?_⟩
  · unfold forAllInZOrder2
    have e : forEachIndexInZOrder (n := 1) ![r1.end_.sub r1.begin_, r2.end_.sub r2.begin_] = some l := e
    rw [e]
    exact e'
  · rw [h' p hp]
    by_cases hE : ElementOf C c p
    · rw [if_pos hE]
      obtain ⟨x, y, hx, hy, rfl⟩ := hE
      have hiff : ∀ i ∈ l, (Rect (elementAddress C c) (r1.get (i 0)) (r2.get (i 1)) (elementAddress C c x y) ↔
          InInterval (r1.get (i 0)) x ∧ InInterval (r2.get (i 1)) y) := by
        intro i hil
        constructor
        · rintro ⟨x', y', hx', hy', e⟩
          obtain ⟨rfl, rfl⟩ := h.injective _ _ _ _ hx hy ((hw i hil).1 _ hx') ((hw i hil).2 _ hy') e
          exact ⟨hx', hy'⟩
        · rintro ⟨hx', hy'⟩
          exact ⟨x, y, hx', hy', rfl⟩
      have hcount : l.countP (fun i => decide (Rect (elementAddress C c) (r1.get (i 0)) (r2.get (i 1))
          (elementAddress C c x y))) = mult (elementAddress C c x y) := by
        rw [hmult x y hx hy, ← countP_pairs htr hi htc hj hx hy hnd hmem]
        refine List.countP_congr fun i hil => ?_
        rw [decide_eq_true_iff, decide_eq_true_iff]
        exact hiff i hil
      by_cases hf : ko.min = A.j.val.min
      · simp only [if_pos hf]
        refine foldl_ite_some (P := fun i : Fin 2 → Int => Rect (elementAddress C c) (r1.get (i 0)) (r2.get (i 1))
          (elementAddress C c x y)) ?_
        have hpos : 0 < l.countP (fun i => decide (Rect (elementAddress C c) (r1.get (i 0)) (r2.get (i 1))
            (elementAddress C c x y))) := by
          rw [hcount, hmult x y hx hy]
          unfold tileCount
          split <;> split <;> omega
        obtain ⟨i, hil, hP⟩ := List.countP_pos_iff.1 hpos
        exact ⟨i, hil, of_decide_eq_true hP⟩
      · simp only [if_neg hf]
        rw [← hcount]
        exact foldl_ite_count (P := fun i : Fin 2 → Int => Rect (elementAddress C c) (r1.get (i 0)) (r2.get (i 1))
          (elementAddress C c x y))
    · rw [if_neg hE]
      exact foldl_ite_none (P := fun i : Fin 2 → Int => Rect (elementAddress C c) (r1.get (i 0)) (r2.get (i 1)) p)
        (f := fun _ s => if ko.min = A.j.val.min then valueOf o ko W p else o.add s (valueOf o ko W p))
        fun i hil hR => hE (hrect i hil p hR)

/-- The intervals of `split(v, n)` are between the first and the last index, and do not start at the first
one, except for the first interval. -/
theorem dynPieces_mem {n x e : Int} (hn : 0 < n) {v : Interval} (hv : v ∈ dynPieces n x e) :
    x ≤ v.min ∧ 0 < v.extent ∧ v.min + v.extent ≤ x + e := by
  unfold dynPieces at hv
  obtain ⟨k, hk, rfl⟩ := List.mem_map.1 hv
  have hk := List.mem_range.1 hk
  unfold pieces at hk
  have h1 : (k : Int) + 1 ≤ (e + n - 1) / n := by omega
  have h2 := (Int.le_ediv_iff_mul_le hn).1 h1
  have h3 : 0 ≤ n * (k : Int) := mul_nonneg (by omega) (by omega)
  have h4 : ((k : Int) + 1) * n = n * k + n := by ring
  rw [h4] at h2
  generalize n * (k : Int) = t at *
  dsimp only
  omega

/-- `multiply_reduce_tiles_z_order`. -/
theorem zOrder_spec (h : Multipliable A B C a b c) (hb : BufferFree A B C a b c buf (tr * tc)) (debug : Bool)
    {tk : Int} (htr : 0 < tr) (htc : 0 < tc) (htk : 0 < tk) (hi : tr ≤ C.i.val.extent) (hj : tc ≤ C.j.val.extent)
    (hK : 0 < A.j.val.extent) (m : Mem F) {W : Int → Int → F} (hW : IsTerm o A B C a b c m W) {mult : Int → Nat}
    (hmult : ∀ i j, inDim C.i i → inDim C.j j →
      mult (elementAddress C c i j) = tileCount tr C.i i * tileCount tc C.j j) :
    ∃ m', multiplyReduceTilesZOrder o debug tr tc tk buf A B C m = some m' ∧
      ∀ p, ¬ (buf ≤ p ∧ p < buf + tr * tc) → m' p = if ElementOf C c p then
        (blocks tk A.j.val.toInterval).tail.foldl (fun s ko => addTimes o (mult p) (valueOf o ko W p) s)
          (valueOf o ⟨A.j.val.min, min tk A.j.val.extent⟩ W p) else m p := by
  have hop : ∀ p, ElementOf C c p → ¬ Operands A B a b p := by
    rintro p ⟨i, j, h1, h2, rfl⟩
    exact h.mulView.not_operand h1 h2
  have hsep : ∀ p, Operands A B a b p → ¬ (buf ≤ p ∧ p < buf + tr * tc) := by
    rintro p (hp | hp) hbuf
    · exact (hb p hbuf.1 hbuf.2).1 hp
    · exact (hb p hbuf.1 hbuf.2).2.1 hp
  have e0 : blocks tk A.j.val.toInterval = dynPieces tk A.j.val.min A.j.val.extent := rfl
  have ek := dynPieces_step (m := A.j.val.min) htk hK
  obtain ⟨ai, -⟩ := splittable_pieces (debug := debug) htr (Or.inl hi)
  obtain ⟨aj, -⟩ := splittable_pieces (debug := debug) htc (Or.inl hj)
  obtain ⟨m', e, -, h'⟩ := run_blocks (fun m ko => do
      requireAssert debug (splitStaticAssert tr C.i.val.toInterval)
      requireAssert debug (splitStaticAssert tc C.j.val.toInterval)
      forAllInZOrder2 (splitStatic tr C.i.val.toInterval) (splitStatic tc C.j.val.toInterval)
        (multiplyZTile o tr tc buf A B C ko) m)
    (fun _ p => ElementOf C c p)
    (fun ko p s => if ko.min = A.j.val.min then valueOf o ko W p else addTimes o (mult p) (valueOf o ko W p) s)
    (Operands A B a b) (fun p => buf ≤ p ∧ p < buf + tr * tc) m (dynPieces tk A.j.val.min A.j.val.extent)
    (fun ko hko m1 hm1 => by
      have hm := dynPieces_mem htk hko
      obtain ⟨m2, e2, -, h2⟩ := zStep_spec h hb htr htc hi hj (ko := ko) (by omega)
        (fun x hx => by unfold InInterval at hx; unfold inDim; omega) hW hmult m1 hm1
      rw [ai, aj]
      exact ⟨m2, e2, h2⟩)
    (fun ko hko p hp => ⟨fun hE => hop p hE hp, hsep p hp⟩) m (fun _ _ => rfl)
  refine ⟨m', ?_, fun p hp => ?_⟩
  · unfold multiplyReduceTilesZOrder
    rw [dynIterate htk (by show 0 ≤ A.j.val.extent; omega)]
    exact e
  · rw [h' p hp]
    by_cases hE : ElementOf C c p
    · simp only [if_pos hE]
      rw [e0, ek, List.tail_cons, List.foldl_cons, if_pos rfl]
      refine List.foldl_ext _ _ _ fun s ko hko => ?_
      have := dynPieces_mem htk hko
      rw [if_neg (by omega)]
    · simp only [if_neg hE]
      exact List.foldl_fixed _

theorem dynPieces_nil {n x : Int} (hn : 0 < n) : dynPieces n x 0 = [] := by
  unfold dynPieces pieces
  rw [Int.ediv_eq_zero_of_lt (by omega) (by omega)]
  rfl

theorem tileCount_of_dvd {N : Int} {d : SDim} {x : Int} (hN : 0 < N) (h : N ∣ d.val.extent) :
    tileCount N d x = 1 := by
  obtain ⟨q, hq⟩ := h
  unfold tileCount
  rw [if_neg]
  have e : (d.val.extent - 1) / N * N = d.val.extent - N := by
    have : d.val.extent - 1 = (N - 1) + (q - 1) * N := by rw [hq]; ring
    rw [this, Int.add_mul_ediv_right _ _ (by omega), Int.ediv_eq_zero_of_lt (by omega) (by omega), hq]
    ring
  omega

theorem foldl_add_shift {g : Int → F} (hassoc : ∀ x y z, o.add (o.add x y) z = o.add x (o.add y z))
    (hzero : ∀ x, o.add x o.zero = x) : ∀ (l : List Int) (s t : F),
    l.foldl (fun s k => o.add s (g k)) (o.add s t) = o.add s (l.foldl (fun s k => o.add s (g k)) t)
  | [], _, _ => rfl
  | k :: l, s, t => by rw [List.foldl_cons, List.foldl_cons, hassoc, foldl_add_shift hassoc hzero]

/-- Sums over the blocks, added up, are the sum over the interval. -/
theorem foldl_blocks {g : Int → F} (hassoc : ∀ x y z, o.add (o.add x y) z = o.add x (o.add y z))
    (hzero : ∀ x, o.add x o.zero = x) {n : Int} (hn : 0 < n) : ∀ (f : Nat) (x e : Int) (s : F), 0 ≤ e → e.toNat ≤ f →
    (dynPieces n x e).foldl (fun s ko => o.add s ((ascending ko).foldl (fun s k => o.add s (g k)) o.zero)) s =
      (ascending ⟨x, e⟩).foldl (fun s k => o.add s (g k)) s
  | f, x, e, s, h0, hf => by
    rcases eq_or_lt_of_le h0 with rfl | h0
    · rw [dynPieces_nil hn]
      rfl
    · match f, hf with
      | 0, hf => omega
      | f + 1, hf =>
        rw [dynPieces_step hn h0, List.foldl_cons, ← foldl_add_shift hassoc hzero, hzero,
          foldl_blocks hassoc hzero hn f _ _ _ (by omega) (by omega)]
        have : ascending ⟨x, e⟩ = ascending ⟨x, min n e⟩ ++ ascending ⟨x + min n e, e - min n e⟩ := by
          unfold ascending
          dsimp only
          have : e.toNat = (min n e).toNat + (e - min n e).toNat := by omega
          rw [this, List.range_add, List.map_append, List.map_map]
          congr 1
          refine List.map_congr_left fun k _ => ?_
          simp only [Function.comp]
          push_cast
          omega
        rw [this, List.foldl_append]

theorem dot_blocks {tk i j : Int} {m : Mem F} (hk : 0 < tk) (hK : 0 < A.j.val.extent)
    (hassoc : ∀ x y z, o.add (o.add x y) z = o.add x (o.add y z)) (hzero : ∀ x, o.add x o.zero = x) :
    (blocks tk A.j.val.toInterval).tail.foldl (fun s ko => addTimes o 1 (dotFrom o A B a b m ko o.zero i j) s)
      (dotFrom o A B a b m ⟨A.j.val.min, min tk A.j.val.extent⟩ o.zero i j) =
    dotFrom o A B a b m A.j.val.toInterval o.zero i j := by
  have e0 : blocks tk A.j.val.toInterval = dynPieces tk A.j.val.min A.j.val.extent := rfl
  rw [e0, dynPieces_step hk hK, List.tail_cons]
  unfold dotFrom
  refine (foldl_blocks hassoc hzero hk (A.j.val.extent).toNat _ _ _ (by omega) (by omega)).trans ?_
  rw [← List.foldl_append]
  congr 1
  unfold ascending
  dsimp only
  have : A.j.val.toInterval.extent.toNat = (min tk A.j.val.extent).toNat +
    (A.j.val.extent - min tk A.j.val.extent).toNat := by
      show A.j.val.extent.toNat = _
      omega
  rw [this, List.range_add, List.map_append, List.map_map]
  congr 1
  refine List.map_congr_left fun k _ => ?_
  simp only [Function.comp]
  push_cast
  show _ = A.j.val.min + _
  omega

end
end Nda
