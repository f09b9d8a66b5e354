import Verif.Spec.Pointers
import Verif.Lemmas.Values
import Verif.Lemmas.Order
/-
Lemmas about the pointers loops compute.
-/
namespace Nda
open Spec

section
variable {P : Type} [PtrPack P] [PtrEnd P]

theorem calls_append (l m : List (LoopEvent P)) : calls (l ++ m) = calls l ++ calls m := by
  induction l with
  | nil => rfl
  | cons a l ih => cases a <;> simp [calls, ih]

theorem calls_dense (e : Int) (p : P) : calls (denseEvents e p) = denseLoop e p := by
  induction hn : (e - PtrPack.ptr0 p).toNat generalizing p with
  | zero => rw [denseEvents, denseLoop, if_neg (by omega), if_neg (by omega)]; rfl
  | succ n ih =>
    rw [denseEvents, denseLoop, if_pos (by omega), if_pos (by omega)]
    simp only [calls]
    rw [ih]
    rw [PtrPack.ptr0_inc]; omega

theorem calls_stride (body : P → List (LoopEvent P)) (st : P) (n : Nat) (p : P) :
    calls (strideEvents body st n p) = strideLoop (fun q => calls (body q)) st n p := by
  induction n generalizing p with
  | zero => rfl
  | succ n ih => rw [strideEvents, strideLoop, calls_append, calls, ih]

theorem calls_value (dims : List (Int × P)) (p : P) : calls (valueEvents dims p) = valueLoop dims p := by
  induction dims generalizing p with
  | nil => rfl
  | cons d rest ih =>
    obtain ⟨e, st⟩ := d
    cases rest with
    | nil =>
      rw [valueEvents, valueLoop]
      split
      · simp only [calls]; exact calls_dense _ _
      · rw [calls_stride]; rfl
    | cons d2 rest =>
      rw [valueEvents, valueLoop, calls_stride]
      · congr 1
        funext q
        exact ih q
      all_goals simp
end

theorem mem_strideEvents (body : Int → List (LoopEvent Int)) (st : Int) (n : Nat) (p q : Int) :
    .form q ∈ strideEvents body st n p ↔ (∃ k : Nat, k < n ∧ q = p + (k + 1) * st) ∨ ∃ k : Nat, k < n ∧ .form q ∈ body (p + k * st) := by
  induction n generalizing p with
  | zero => simp [strideEvents]
  | succ n ih =>
    rw [strideEvents, List.mem_append, List.mem_cons, ih]
    simp only [LoopEvent.form.injEq, PtrPack.advance]
    constructor
    · rintro (h | rfl | ⟨k, hk, rfl⟩ | ⟨k, hk, h⟩)
      · exact Or.inr ⟨0, by omega, by simpa using h⟩
      · exact Or.inl ⟨0, by omega, by simp⟩
      · exact Or.inl ⟨k + 1, by omega, by push_cast; ring⟩
      · refine Or.inr ⟨k + 1, by omega, ?_⟩
        rw [show p + ((k + 1 : Nat) : Int) * st = p + st + k * st by push_cast; ring]
        exact h
    · rintro (⟨k, hk, rfl⟩ | ⟨k, hk, h⟩)
      · cases k with
        | zero => exact Or.inr (Or.inl (by simp))
        | succ k => exact Or.inr (Or.inr (Or.inl ⟨k, by omega, by push_cast; ring⟩))
      · cases k with
        | zero => exact Or.inl (by simpa using h)
        | succ k =>
          refine Or.inr (Or.inr (Or.inr ⟨k, by omega, ?_⟩))
          rw [show p + st + (k : Int) * st = p + ((k + 1 : Nat) : Int) * st by push_cast; ring]
          exact h

theorem mem_denseEvents (e p q : Int) : .form q ∈ denseEvents e p ↔ p < q ∧ q ≤ e := by
  induction hn : (e - p).toNat generalizing p with
  | zero =>
    rw [denseEvents, if_neg (by simp only [PtrPack.ptr0]; omega)]
    simp only [List.not_mem_nil, false_iff]; omega
  | succ n ih =>
    rw [denseEvents, if_pos (by simp only [PtrPack.ptr0]; omega)]
    simp only [List.mem_cons, LoopEvent.form.injEq, reduceCtorEq, false_or]
    simp only [PtrPack.inc]
    rw [ih (p + 1) (by omega)]
    omega

/-- The pointers computed by a loop with at least one iteration, and by the loops in it. -/
theorem mem_valueEvents {e st : Int} {rest : List (Int × Int)} (he : 0 < e) (p q : Int) :
    .form q ∈ valueEvents ((e, st) :: rest) p ↔ (∃ k : Int, 0 ≤ k ∧ k < e ∧ q = p + (k + 1) * st) ∨
      ∃ k : Int, 0 ≤ k ∧ k < e ∧ .form q ∈ valueEvents rest (p + k * st) := by
  have key : ∀ body : Int → List (LoopEvent Int), .form q ∈ strideEvents body st e.toNat p ↔
      (∃ k : Int, 0 ≤ k ∧ k < e ∧ q = p + (k + 1) * st) ∨ ∃ k : Int, 0 ≤ k ∧ k < e ∧ .form q ∈ body (p + k * st) := by
    intro body
    rw [mem_strideEvents]
    refine or_congr ?_ ?_
    · constructor
      · rintro ⟨k, hk, h⟩; exact ⟨k, by omega, by omega, h⟩
      · rintro ⟨k, h0, hk, h⟩; exact ⟨k.toNat, by omega, by rw [Int.toNat_of_nonneg h0]; exact h⟩
    · constructor
      · rintro ⟨k, hk, h⟩; exact ⟨k, by omega, by omega, h⟩
      · rintro ⟨k, h0, hk, h⟩; exact ⟨k.toNat, by omega, by rw [Int.toNat_of_nonneg h0]; exact h⟩
  cases rest with
  | cons d2 rest =>
    rw [valueEvents]
    · exact key _
    · simp
  | nil =>
    rw [valueEvents]
    split
    · rename_i h1
      simp only [PtrPack.allOne, all_iff, List.mem_singleton, forall_eq, beq_iff_eq] at h1
      subst h1
      simp only [List.mem_cons, LoopEvent.form.injEq, mem_denseEvents, valueEvents, PtrEnd.endOf, PtrPack.ptr0, reduceCtorEq,
        List.not_mem_nil, or_false, and_false, exists_false]
      constructor
      · intro h; exact ⟨q - p - 1, by omega, by omega, by ring⟩
      · rintro ⟨k, h0, h1, rfl⟩; omega
    · rw [key]
      simp [valueEvents]

/-! ### Bounds of the pointers, outermost dim first -/

def total (l : List (Int × Int)) : Int := (l.map fun d => (d.1 - 1) * d.2).sum

def SeqRev : List (Int × Int) → Prop
  | [] => True
  | d :: rest => d.2 ≤ 1 + total rest ∧ SeqRev rest

theorem total_cons (d : Int × Int) (l : List (Int × Int)) : total (d :: l) = (d.1 - 1) * d.2 + total l := by simp [total]

theorem total_nonneg {l : List (Int × Int)} (h : ∀ d ∈ l, 0 < d.1 ∧ 0 ≤ d.2) : 0 ≤ total l := by
  induction l with
  | nil => simp [total]
  | cons d l ih =>
    rw [total_cons]
    have h1 := h d (by simp)
    have := ih fun d hd => h d (by simp [hd])
    have : 0 ≤ (d.1 - 1) * d.2 := mul_nonneg (by omega) h1.2
    omega

theorem forms_ge {l : List (Int × Int)} (h : ∀ d ∈ l, 0 < d.1 ∧ 0 ≤ d.2) (p q : Int) (hq : .form q ∈ valueEvents l p) : p ≤ q := by
  induction l generalizing p with
  | nil => simp [valueEvents] at hq
  | cons d l ih =>
    have h1 := h d (by simp)
    obtain ⟨e, st⟩ := d
    dsimp only at h1
    rcases (mem_valueEvents h1.1 p q).1 hq with ⟨k, hk, _, rfl⟩ | ⟨k, hk, _, hq⟩
    · have : 0 ≤ (k + 1) * st := mul_nonneg (by omega) h1.2
      omega
    · have := ih (fun d hd => h d (by simp [hd])) _ hq
      have : 0 ≤ k * st := mul_nonneg hk h1.2
      omega

theorem forms_le_iff {l : List (Int × Int)} (h : ∀ d ∈ l, 0 < d.1 ∧ 0 ≤ d.2) (p : Int) :
    (∀ q, .form q ∈ valueEvents l p → q ≤ p + total l + 1) ↔ SeqRev l := by
  have mono : ∀ (l : List (Int × Int)), (∀ d ∈ l, 0 < d.1 ∧ 0 ≤ d.2) → SeqRev l → ∀ p q, .form q ∈ valueEvents l p →
      q ≤ p + total l + 1 := by
    intro l
    induction l with
    | nil => intro _ _ p q hq; simp [valueEvents] at hq
    | cons d l ih =>
      intro h hs p q hq
      have h1 := h d (by simp)
      obtain ⟨e, st⟩ := d
      dsimp only at h1
      obtain ⟨hs1, hs2⟩ := hs
      dsimp only at hs1
      rw [total_cons]
      dsimp only
      rcases (mem_valueEvents h1.1 p q).1 hq with ⟨k, hk, hk', rfl⟩ | ⟨k, hk, hk', hq⟩
      · have : k * st ≤ (e - 1) * st := mul_le_mul_of_nonneg_right (by omega) h1.2
        have e1 : (k + 1) * st = k * st + st := by ring
        omega
      · have h2 := ih (fun d hd => h d (by simp [hd])) hs2 _ _ hq
        have : k * st ≤ (e - 1) * st := mul_le_mul_of_nonneg_right (by omega) h1.2
        omega
  refine ⟨?_, fun hs => mono l h hs p⟩
  induction l generalizing p with
  | nil => intro _; trivial
  | cons d l ih =>
    intro hq
    have h1 := h d (by simp)
    have ht := total_nonneg (l := l) fun d hd => h d (by simp [hd])
    obtain ⟨e, st⟩ := d
    dsimp only at h1
    rw [total_cons] at hq
    dsimp only at hq
    refine ⟨?_, ih (fun d hd => h d (by simp [hd])) (p + (e - 1) * st) fun q hq' => ?_⟩
    · have := hq (p + (e - 1 + 1) * st) ((mem_valueEvents h1.1 _ _).2 (Or.inl ⟨e - 1, by omega, by omega, rfl⟩))
      have e1 : (e - 1 + 1) * st = (e - 1) * st + st := by ring
      dsimp only
      omega
    · have := hq q ((mem_valueEvents h1.1 _ _).2 (Or.inr ⟨e - 1, by omega, by omega, hq'⟩))
      omega

/-- If the innermost stride is negative, a pointer before the first element is computed. -/
theorem forms_lt {l : List (Int × Int)} {d0 : Int × Int} (h : ∀ d ∈ l, 0 < d.1) (h0 : 0 < d0.1) (hneg : d0.2 < 0) (p : Int) :
    ∃ q, .form q ∈ valueEvents (l ++ [d0]) p ∧ q < p + ((l ++ [d0]).map fun d => (d.1 - 1) * min 0 d.2).sum := by
  induction l generalizing p with
  | nil =>
    refine ⟨p + (d0.1 - 1 + 1) * d0.2, (mem_valueEvents h0 _ _).2 (Or.inl ⟨d0.1 - 1, by omega, by omega, rfl⟩), ?_⟩
    simp only [List.nil_append, List.map_cons, List.map_nil, List.sum_cons, List.sum_nil, min_eq_right hneg.le]
    have e1 : (d0.1 - 1 + 1) * d0.2 = (d0.1 - 1) * d0.2 + d0.2 := by ring
    omega
  | cons d l ih =>
    have h1 := h d (by simp)
    obtain ⟨e, st⟩ := d
    dsimp only at h1
    rcases le_total 0 st with hs | hs
    · obtain ⟨q, hq, hlt⟩ := ih (fun d hd => h d (by simp [hd])) (p + 0 * st)
      refine ⟨q, (mem_valueEvents h1 _ _).2 (Or.inr ⟨0, le_refl _, h1, hq⟩), ?_⟩
      simp only [List.cons_append, List.map_cons, List.sum_cons, min_eq_left hs, mul_zero, zero_add]
      omega
    · obtain ⟨q, hq, hlt⟩ := ih (fun d hd => h d (by simp [hd])) (p + (e - 1) * st)
      refine ⟨q, (mem_valueEvents h1 _ _).2 (Or.inr ⟨e - 1, by omega, by omega, hq⟩), ?_⟩
      simp only [List.cons_append, List.map_cons, List.sum_cons, min_eq_right hs]
      omega

/-! ### The condition, innermost dim first -/

def SeqFrom : Int → List Dim → Prop
  | _, [] => True
  | c, d :: l => d.stride ≤ c ∧ SeqFrom (c + (d.extent - 1) * d.stride) l

def esOf (d : Dim) : Int × Int := (d.extent, d.stride)

theorem seqFrom_append (c : Int) (l m : List Dim) :
    SeqFrom c (l ++ m) ↔ SeqFrom c l ∧ SeqFrom (c + total (l.map esOf)) m := by
  induction l generalizing c with
  | nil => simp [SeqFrom, total]
  | cons d l ih =>
    simp only [List.cons_append, SeqFrom, ih, List.map_cons, total_cons, esOf, and_assoc]
    rw [show c + (d.extent - 1) * d.stride + total (l.map esOf) = c + ((d.extent - 1) * d.stride + total (l.map esOf)) by ring]

theorem total_perm {l m : List (Int × Int)} (h : l.Perm m) : total l = total m := (h.map _).sum_eq

theorem seqRev_iff (l : List Dim) : SeqRev (l.map esOf).reverse ↔ SeqFrom 1 l := by
  induction l using List.reverseRecOn with
  | nil => simp [SeqRev, SeqFrom]
  | append_singleton l d ih =>
    rw [List.map_append, List.reverse_append, seqFrom_append]
    simp only [List.map_cons, List.map_nil, List.reverse_singleton, List.singleton_append, SeqRev, SeqFrom, and_true, ih]
    rw [total_perm (List.reverse_perm _), and_comm]
    rfl

theorem seqFrom_fuse (l : List Dim) (c : Int) : SeqFrom c (fuseLoop canFuse fuse l) ↔ SeqFrom c l := by
  induction hn : l.length generalizing l c with
  | zero => cases l with
    | nil => rw [fuseLoop]
    | cons => simp at hn
  | succ n ih =>
    match l with
    | [] => simp at hn
    | [d] => rw [fuseLoop]
    | d0 :: d1 :: ds =>
      rw [fuseLoop]
      split
      · rename_i hc
        rw [canFuse_iff] at hc
        rw [ih _ _ (by simpa using hn)]
        simp only [SeqFrom, fuse, ← hc]
        have e1 : c + (d0.extent * d1.extent - 1) * d0.stride =
            c + (d0.extent - 1) * d0.stride + (d1.extent - 1) * (d0.stride * d0.extent) := by ring
        rw [e1]
        constructor
        · rintro ⟨h1, h2⟩
          refine ⟨h1, ?_, h2⟩
          have : d0.stride * d0.extent = (d0.extent - 1) * d0.stride + d0.stride := by ring
          omega
        · rintro ⟨h1, _, h2⟩; exact ⟨h1, h2⟩
      · simp only [SeqFrom]
        rw [ih (d1 :: ds) _ (by simpa using hn)]
        rfl

theorem seqFrom_pad (c : Int) (hc : 0 ≤ c) (n : Nat) : SeqFrom c (List.replicate n ⟨0, 1, 0⟩) := by
  induction n with
  | zero => trivial
  | succ n ih => exact ⟨hc, by simpa using ih⟩

/-- Strides of the fused dims are strides of the dims, and the first one stays. -/
theorem fuse_strides (l : List Dim) : (∀ d ∈ fuseLoop canFuse fuse l, ∃ e ∈ l, e.stride = d.stride) ∧
    ((fuseLoop canFuse fuse l).head?.map Dim.stride = l.head?.map Dim.stride) ∧
    (Pos l → Pos (fuseLoop canFuse fuse l)) := by
  induction hn : l.length generalizing l with
  | zero => cases l with
    | nil => rw [fuseLoop]; simp
    | cons => simp at hn
  | succ n ih =>
    match l with
    | [] => simp at hn
    | [d] => rw [fuseLoop]; simp
    | d0 :: d1 :: ds =>
      rw [fuseLoop]
      split
      · obtain ⟨h1, h2, h3⟩ := ih (fuse d0 d1 :: ds) (by simpa using hn)
        refine ⟨?_, ?_, ?_⟩
        · intro d hd
          obtain ⟨e, he, hs⟩ := h1 d hd
          rcases List.mem_cons.1 he with rfl | he
          · exact ⟨d0, by simp, hs⟩
          · exact ⟨e, by simp [he], hs⟩
        · rw [h2]; rfl
        · intro hp
          rw [pos_cons, pos_cons] at hp
          refine h3 ?_
          rw [pos_cons]
          exact ⟨mul_pos hp.1 hp.2.1, hp.2.2⟩
      · obtain ⟨h1, h2, h3⟩ := ih (d1 :: ds) (by simpa using hn)
        refine ⟨?_, rfl, ?_⟩
        · intro d hd
          rcases List.mem_cons.1 hd with rfl | hd
          · exact ⟨d, by simp, rfl⟩
          · obtain ⟨e, he, hs⟩ := h1 d hd
            exact ⟨e, List.mem_cons_of_mem _ he, hs⟩
        · intro hp
          rw [pos_cons] at hp
          rw [pos_cons]
          exact ⟨hp.1, h3 hp.2⟩

theorem reachBelow_perm {s t : List Dim} (h : s.Perm t) (d : Dim) : reachBelow s d = reachBelow t d :=
  ((h.filter _).map _).sum_eq

theorem noGaps_perm {s t : List Dim} (h : s.Perm t) : NoGaps s ↔ NoGaps t := by
  unfold NoGaps
  simp only [h.mem_iff, reachBelow_perm h]

theorem total_filter_le {l : List Dim} (h : ∀ d ∈ l, 0 < d.extent ∧ 0 ≤ d.stride) (f : Dim → Bool) :
    ((l.filter f).map fun e => (e.extent - 1) * e.stride).sum ≤ total (l.map esOf) := by
  induction l with
  | nil => simp [total]
  | cons d l ih =>
    have h1 := h d (by simp)
    have h2 := ih fun d hd => h d (by simp [hd])
    have : 0 ≤ (d.extent - 1) * d.stride := mul_nonneg (by omega) h1.2
    rw [List.map_cons, total_cons, List.filter_cons]
    simp only [esOf]
    split
    · rw [List.map_cons, List.sum_cons]; exact Int.add_le_add_left h2 _
    · omega

/-- For dims sorted by stride. -/
theorem noGaps_sorted {l : List Dim} (hp : Pos l) (h : l.Pairwise fun a b => a.stride ≤ b.stride) (h0 : ∀ d ∈ l, 0 ≤ d.stride) :
    NoGaps l ↔ SeqFrom 1 l := by
  have hall : ∀ d ∈ l, 0 < d.extent ∧ 0 ≤ d.stride := fun d hd => ⟨hp d hd, h0 d hd⟩
  have hseq : SeqFrom 1 l ↔ ∀ pre d post, l = pre ++ d :: post → d.stride ≤ 1 + total (pre.map esOf) := by
    constructor
    · rintro hs pre d post rfl
      exact ((seqFrom_append _ _ _).1 hs).2.1
    · intro hs
      clear h h0 hall hp
      induction l using List.reverseRecOn with
      | nil => trivial
      | append_singleton l d ih =>
        rw [seqFrom_append]
        refine ⟨ih fun pre d' post e => hs pre d' (post ++ [d]) (by simp [e]), hs l d [] (by simp), trivial⟩
  rw [hseq]
  constructor
  · rintro hg pre d post rfl
    have h1 := (hg d (by simp)).2
    refine le_trans h1 (Int.add_le_add_left ?_ _)
    unfold reachBelow
    rw [List.pairwise_append] at h
    have hpost : (d :: post).filter (fun e => decide (e.stride < d.stride)) = [] := by
      rw [List.filter_eq_nil_iff]
      intro e he
      have : d.stride ≤ e.stride := by
        rcases List.mem_cons.1 he with rfl | he
        · exact le_refl _
        · exact (List.pairwise_cons.1 h.2.1).1 e he
      simp only [decide_eq_true_eq]; omega
    rw [List.filter_append, hpost, List.append_nil]
    exact total_filter_le (fun e he => hall e (by simp [he])) _
  · intro hs d hd
    refine ⟨h0 d hd, ?_⟩
    -- the first dim with the stride of `d`
    obtain ⟨pre, d1, post, e, h1, h2⟩ : ∃ pre d1 post, l = pre ++ d1 :: post ∧ d1.stride = d.stride ∧
        ∀ e ∈ pre, e.stride ≠ d.stride := by
      clear hs hseq hall h0 h hp
      induction l with
      | nil => simp at hd
      | cons a l ih =>
        by_cases ha : a.stride = d.stride
        · exact ⟨[], a, l, rfl, ha, by simp⟩
        · rcases List.mem_cons.1 hd with rfl | hd
          · exact absurd rfl ha
          · obtain ⟨pre, d1, post, e, h1, h2⟩ := ih hd
            refine ⟨a :: pre, d1, post, by rw [e]; rfl, h1, ?_⟩
            intro x hx
            rcases List.mem_cons.1 hx with rfl | hx
            · exact ha
            · exact h2 x hx
    have h3 := hs pre d1 post e
    subst e
    rw [List.pairwise_append] at h
    have hpre : pre.filter (fun e => decide (e.stride < d.stride)) = pre := by
      rw [List.filter_eq_self]
      intro x hx
      have := h.2.2 x hx d1 (by simp)
      have := h2 x hx
      simp only [decide_eq_true_eq]; omega
    have hpost : (d1 :: post).filter (fun e => decide (e.stride < d.stride)) = [] := by
      rw [List.filter_eq_nil_iff]
      intro x hx
      have : d1.stride ≤ x.stride := by
        rcases List.mem_cons.1 hx with rfl | hx
        · exact le_refl _
        · exact (List.pairwise_cons.1 h.2.1).1 x hx
      simp only [decide_eq_true_eq]; omega
    unfold reachBelow
    rw [List.filter_append, hpost, hpre, List.append_nil]
    rw [← h1]
    unfold total at h3
    rw [List.map_map] at h3
    exact h3

end Nda
