import Verif.Spec.LinearAlgebra
import Verif.Lemmas.Loops
import Verif.Lemmas.Resample
/-
Loops that update memory block by block.
-/
namespace Nda
open Spec Classical
variable {F β : Type}

/-- If each step updates the cells of its block by a function of their old values, then the loop applies
these functions in order.  `S`: cells the functions depend on; `J`: scratch cells. -/
theorem run_blocks (step : Mem F → β → Option (Mem F)) (T : β → Int → Prop) (g : β → Int → F → F)
    (S J : Int → Prop) (r : Mem F) : ∀ (bs : List β),
    (∀ x ∈ bs, ∀ m, (∀ p, S p → m p = r p) →
      ∃ m', step m x = some m' ∧ ∀ p, ¬ J p → m' p = if T x p then g x p (m p) else m p) →
    (∀ x ∈ bs, ∀ p, S p → ¬ T x p ∧ ¬ J p) →
    ∀ m, (∀ p, S p → m p = r p) →
    ∃ m', bs.foldlM step m = some m' ∧ (∀ p, S p → m' p = r p) ∧
      ∀ p, ¬ J p → m' p = bs.foldl (fun s x => if T x p then g x p s else s) (m p)
  | [], _, _, m, hm => ⟨m, rfl, hm, fun _ _ => rfl⟩
  | x :: bs, h, hS, m, hm => by
    obtain ⟨m1, e1, h1⟩ := h x (by simp) m hm
    have hm1 : ∀ p, S p → m1 p = r p := by
      intro p hp
      obtain ⟨hT, hJ⟩ := hS x (by simp) p hp
      rw [h1 p hJ, if_neg hT, hm p hp]
    obtain ⟨m2, e2, h2, h3⟩ := run_blocks step T g S J r bs (fun y hy => h y (by simp [hy]))
      (fun y hy => hS y (by simp [hy])) m1 hm1
    refine ⟨m2, ?_, h2, fun p hp => ?_⟩
    · rw [List.foldlM_cons, e1]; exact e2
    · rw [h3 p hp, h1 p hp, List.foldl_cons]

theorem foldl_ite_none {P : β → Prop} {f : β → F → F} : ∀ {l : List β} {s : F}, (∀ x ∈ l, ¬ P x) →
    l.foldl (fun s x => if P x then f x s else s) s = s
  | [], _, _ => rfl
  | x :: l, s, h => by
    rw [List.foldl_cons, if_neg (h x (by simp))]
    exact foldl_ite_none fun y hy => h y (by simp [hy])

/-- Exactly one step of a loop applies. -/
theorem foldl_ite_one {P : β → Prop} {f : β → F → F} : ∀ {l : List β} {s : F} {x : β}, l.Nodup → x ∈ l →
    P x → (∀ y ∈ l, P y → y = x) → l.foldl (fun s x => if P x then f x s else s) s = f x s
  | [], _, _, _, h, _, _ => by simp at h
  | y :: l, s, x, hnd, hx, hP, hu => by
    rw [List.nodup_cons] at hnd
    rw [List.foldl_cons]
    by_cases hy : P y
    · have := hu y (by simp) hy
      subst this
      rw [if_pos hP]
      refine foldl_ite_none fun z hz hPz => ?_
      have := hu z (by simp [hz]) hPz
      subst this
      exact hnd.1 hz
    · rw [if_neg hy]
      refine foldl_ite_one hnd.2 ?_ hP fun z hz => hu z (by simp [hz])
      rcases List.mem_cons.1 hx with rfl | h
      · exact absurd hP hy
      · exact h

theorem foldl_ite_some {P : β → Prop} [DecidablePred P] {v : F} : ∀ {l : List β} {s : F}, (∃ x ∈ l, P x) →
    l.foldl (fun s x => if P x then v else s) s = v
  | [], _, h => by simp at h
  | x :: l, s, h => by
    rw [List.foldl_cons]
    by_cases h1 : ∃ x ∈ l, P x
    · exact foldl_ite_some h1
    · have hx : P x := by
        obtain ⟨y, hy, hP⟩ := h
        rcases List.mem_cons.1 hy with rfl | hy
        · exact hP
        · exact absurd ⟨y, hy, hP⟩ h1
      rw [if_pos hx]
      have : ∀ {l : List β}, (∀ x ∈ l, ¬ P x) → l.foldl (fun s x => if P x then v else s) v = v := by
        intro l hl
        induction l with
        | nil => rfl
        | cons y l ih =>
          rw [List.foldl_cons, if_neg (hl y (by simp))]
          exact ih fun z hz => hl z (by simp [hz])
      exact this fun y hy hP => h1 ⟨y, hy, hP⟩

/-- Several steps assign the same value. -/
theorem foldl_ite_const {P : β → Prop} [DecidablePred P] {v : F} {l : List β} [Decidable (∃ x ∈ l, P x)] {s : F} :
    l.foldl (fun s x => if P x then v else s) s = if ∃ x ∈ l, P x then v else s := by
  by_cases h : ∃ x ∈ l, P x
  · rw [if_pos h, foldl_ite_some h]
  · rw [if_neg h]
    induction l with
    | nil => rfl
    | cons y l ih =>
      have hy : ¬ P y := fun hP => h ⟨y, by simp, hP⟩
      rw [List.foldl_cons, if_neg hy]
      exact ih fun ⟨z, hz, hP⟩ => h ⟨z, by simp [hz], hP⟩

theorem foldl_ite_all {P : Prop} {f : β → F → F} : ∀ {l : List β} {s : F},
    l.foldl (fun s x => if P then f x s else s) s = if P then l.foldl (fun s x => f x s) s else s := by
  intro l s
  by_cases h : P
  · simp [h]
  · simp [h]

/-- `p` is the address of a cell of a rectangle. -/
def Rect (addr : Int → Int → Int) (is js : Interval) (p : Int) : Prop :=
  ∃ i j, InInterval is i ∧ InInterval js j ∧ p = addr i j

theorem forRange_eq {σ : Type} {v : Interval} (h : 0 ≤ v.extent) (body : σ → Int → Option σ) (m : σ) :
    forRange v body m = (ints v.min v.extent).foldlM body m := by
  unfold forRange
  rw [Interval.iterate_eq h]
  rfl

/-- A loop that updates each cell of a line. -/
theorem run_line (addr : Int → Int) {js : Interval} (hj : 0 ≤ js.extent)
    (step : Mem F → Int → Option (Mem F)) (g : Int → F → F) (S : Int → Prop) (r : Mem F)
    (hinj : ∀ j j', InInterval js j → InInterval js j' → addr j = addr j' → j = j')
    (hs : ∀ j m, InInterval js j → (∀ p, S p → m p = r p) →
      step m j = some (m.set (addr j) (g (addr j) (m (addr j)))))
    (hS : ∀ j, InInterval js j → ¬ S (addr j)) (m : Mem F) (hm : ∀ p, S p → m p = r p) :
    ∃ m', forRange js step m = some m' ∧ (∀ p, S p → m' p = r p) ∧
      ∀ p, m' p = if ∃ j, InInterval js j ∧ p = addr j then g p (m p) else m p := by
  obtain ⟨m', e, hS', h⟩ := run_blocks step (fun j p => p = addr j) (fun _ p s => g p s) S
    (fun _ => False) r (ints js.min js.extent) (by
      intro j hjj m hm
      refine ⟨_, hs j m (mem_ints.1 hjj) hm, fun p _ => ?_⟩
      unfold Mem.set
      by_cases hp : p = addr j
      · subst hp; simp
      · simp [hp]) (by
      intro j hjj p hp
      refine ⟨?_, not_false⟩
      rintro rfl
      exact hS j (mem_ints.1 hjj) hp) m hm
  refine ⟨m', by rw [forRange_eq hj]; exact e, hS', fun p => ?_⟩
  rw [h p not_false]
  by_cases hp : ∃ j, InInterval js j ∧ p = addr j
  · rw [if_pos hp]
    obtain ⟨j, hjj, rfl⟩ := hp
    exact foldl_ite_one (P := fun x => addr j = addr x) (f := fun _ s => g (addr j) s)
      (ints_nodup _ _) (mem_ints.2 hjj) rfl
      (fun y hy hyj => hinj _ _ (mem_ints.1 hy) hjj hyj.symm)
  · rw [if_neg hp]
    exact foldl_ite_none (P := fun x => p = addr x) (f := fun _ s => g p s)
      fun j hjj hpj => hp ⟨j, mem_ints.1 hjj, hpj⟩

/-- A loop whose steps update disjoint blocks. -/
theorem run_lines (R : Int → Int → Prop) {is : Interval} (hi : 0 ≤ is.extent)
    (step : Mem F → Int → Option (Mem F)) (g : Int → F → F) (S : Int → Prop) (r : Mem F)
    (hdis : ∀ i i' p, InInterval is i → InInterval is i' → R i p → R i' p → i = i')
    (hs : ∀ i m, InInterval is i → (∀ p, S p → m p = r p) →
      ∃ m', step m i = some m' ∧ (∀ p, S p → m' p = r p) ∧ ∀ p, m' p = if R i p then g p (m p) else m p)
    (hS : ∀ i p, InInterval is i → R i p → ¬ S p) (m : Mem F) (hm : ∀ p, S p → m p = r p) :
    ∃ m', forRange is step m = some m' ∧ (∀ p, S p → m' p = r p) ∧
      ∀ p, m' p = if ∃ i, InInterval is i ∧ R i p then g p (m p) else m p := by
  obtain ⟨m', e, hS', h⟩ := run_blocks step R (fun _ p s => g p s) S
    (fun _ => False) r (ints is.min is.extent) (by
      intro i hii m hm
      obtain ⟨m', e, -, h⟩ := hs i m (mem_ints.1 hii) hm
      exact ⟨m', e, fun p _ => h p⟩) (by
      intro i hii p hp
      exact ⟨fun hR => hS i p (mem_ints.1 hii) hR hp, not_false⟩) m hm
  refine ⟨m', by rw [forRange_eq hi]; exact e, hS', fun p => ?_⟩
  rw [h p not_false]
  by_cases hp : ∃ i, InInterval is i ∧ R i p
  · rw [if_pos hp]
    obtain ⟨i, hii, hR⟩ := hp
    exact foldl_ite_one (P := fun x => R x p) (f := fun _ s => g p s)
      (ints_nodup _ _) (mem_ints.2 hii) hR (fun y hy hyj => hdis _ _ _ (mem_ints.1 hy) hii hyj hR)
  · rw [if_neg hp]
    exact foldl_ite_none (P := fun x => R x p) (f := fun _ s => g p s)
      fun i hii hpi => hp ⟨i, mem_ints.1 hii, hpi⟩

/-- A loop whose steps update the same block. -/
theorem run_same (R : Int → Prop) {ks : Interval} (hk : 0 ≤ ks.extent)
    (step : Mem F → Int → Option (Mem F)) (g : Int → Int → F → F) (S : Int → Prop) (r : Mem F)
    (hs : ∀ k m, InInterval ks k → (∀ p, S p → m p = r p) →
      ∃ m', step m k = some m' ∧ (∀ p, S p → m' p = r p) ∧ ∀ p, m' p = if R p then g k p (m p) else m p)
    (hS : ∀ p, R p → ¬ S p) (m : Mem F) (hm : ∀ p, S p → m p = r p) :
    ∃ m', forRange ks step m = some m' ∧ (∀ p, S p → m' p = r p) ∧
      ∀ p, m' p = if R p then (ints ks.min ks.extent).foldl (fun s k => g k p s) (m p) else m p := by
  obtain ⟨m', e, hS', h⟩ := run_blocks step (fun _ => R) g S
    (fun _ => False) r (ints ks.min ks.extent) (by
      intro i hii m hm
      obtain ⟨m', e, -, h⟩ := hs i m (mem_ints.1 hii) hm
      exact ⟨m', e, fun p _ => h p⟩) (by
      intro i hii p hp
      exact ⟨fun hR => hS p hR hp, not_false⟩) m hm
  refine ⟨m', by rw [forRange_eq hk]; exact e, hS', fun p => ?_⟩
  rw [h p not_false]
  exact foldl_ite_all (P := R p) (f := fun k s => g k p s)

/-- Two nested loops that update each cell of a rectangle. -/
theorem run_rect (addr : Int → Int → Int) {is js : Interval} (hi : 0 ≤ is.extent) (hj : 0 ≤ js.extent)
    (step : Mem F → Int → Int → Option (Mem F)) (g : Int → F → F) (S : Int → Prop) (r : Mem F)
    (hinj : ∀ i j i' j', InInterval is i → InInterval js j → InInterval is i' → InInterval js j' →
      addr i j = addr i' j' → i = i' ∧ j = j')
    (hs : ∀ i j m, InInterval is i → InInterval js j → (∀ p, S p → m p = r p) →
      step m i j = some (m.set (addr i j) (g (addr i j) (m (addr i j)))))
    (hS : ∀ i j, InInterval is i → InInterval js j → ¬ S (addr i j))
    (m : Mem F) (hm : ∀ p, S p → m p = r p) :
    ∃ m', forRange is (fun m i => forRange js (fun m j => step m i j) m) m = some m' ∧
      (∀ p, S p → m' p = r p) ∧ ∀ p, m' p = if Rect addr is js p then g p (m p) else m p := by
  obtain ⟨m', e, hS', h⟩ := run_lines (fun i p => ∃ j, InInterval js j ∧ p = addr i j) hi
    (fun m i => forRange js (fun m j => step m i j) m) g S r
    (by
      rintro i i' p hii hii' ⟨j, hjj, rfl⟩ ⟨j', hj', e⟩
      exact (hinj _ _ _ _ hii hjj hii' hj' e).1)
    (fun i m hii hm => run_line (addr i) hj (fun m j => step m i j) g S r
      (fun j j' h1 h2 e => (hinj _ _ _ _ hii h1 hii h2 e).2) (fun j m hjj hm => hs i j m hii hjj hm)
      (fun j hjj => hS i j hii hjj) m hm)
    (by rintro i p hii ⟨j, hjj, rfl⟩; exact hS i j hii hjj) m hm
  refine ⟨m', e, hS', fun p => ?_⟩
  rw [h p]
  refine if_congr ?_ rfl rfl
  constructor
  · rintro ⟨i, hii, j, hjj, e⟩; exact ⟨i, j, hii, hjj, e⟩
  · rintro ⟨i, j, hii, hjj, e⟩; exact ⟨i, hii, j, hjj, e⟩

/-- A function of the cell can be given as a function of the address. -/
theorem exists_byAddress (d : F) (addr : Int → Int → Int) (is js : Interval) (f : Int → Int → F)
    (hinj : ∀ i j i' j', InInterval is i → InInterval js j → InInterval is i' → InInterval js j' →
      addr i j = addr i' j' → i = i' ∧ j = j') :
    ∃ V : Int → F, ∀ i j, InInterval is i → InInterval js j → V (addr i j) = f i j := by
  refine ⟨fun p => if h : Rect addr is js p then f h.choose h.choose_spec.choose else d, ?_⟩
  intro i j hi hj
  have h : Rect addr is js (addr i j) := ⟨i, j, hi, hj, rfl⟩
  beta_reduce
  rw [dif_pos h]
  obtain ⟨h1, h2, h3⟩ := h.choose_spec.choose_spec
  obtain ⟨e1, e2⟩ := hinj _ _ _ _ hi hj h1 h2 h3
  exact (congrArg₂ f e1 e2).symm

end Nda
