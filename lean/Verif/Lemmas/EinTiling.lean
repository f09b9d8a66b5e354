import Verif.Lemmas.Tiling
import Verif.Lemmas.EinAlgebra
import Verif.Props.Compiles
import Verif.Props.EinAsserts
import Verif.Props.Ein
import Verif.Props.Algorithms
import Verif.Model.EinTiling
import Verif.Spec.EinTiling
/-
Lemmas for C98: reductions over tiles of the result.
-/
namespace Nda
open Spec
variable {α : Type}

/-- The argument is one that the cut makes. -/
def PieceTyped : Cut → Arg → Prop
  | .keep, .all => True
  | .dyn _, .ivl _ => True
  | .fixed N, .ivl v => v.extent = N
  | _, _ => False

theorem cut_typed {c : Cut} {d : Dim} (h : CutOk c d) {l : List Arg} (e : c.args d = some l) :
    ∀ a ∈ l, PieceTyped c a := by
  intro a ha
  cases c with
  | keep =>
    simp only [Cut.args, Option.some.injEq] at e
    subst e
    simp only [List.mem_singleton] at ha
    subst ha
    trivial
  | dyn n =>
    simp only [Cut.args, Option.map_eq_some_iff] at e
    obtain ⟨l', _, rfl⟩ := e
    obtain ⟨v, _, rfl⟩ := List.mem_map.1 ha
    trivial
  | fixed N =>
    simp only [Cut.args, Option.map_eq_some_iff] at e
    obtain ⟨l', e', rfl⟩ := e
    obtain ⟨v, hv, rfl⟩ := List.mem_map.1 ha
    obtain ⟨l, h1, _, _, h2⟩ := C25_intervals ⟨d.min, d.extent⟩ N h.1 h.2
    rw [h1, Option.some.injEq] at e'
    subst e'
    obtain ⟨k, hk, rfl⟩ := List.getElem_of_mem hv
    exact (h2 k _ (List.getElem?_eq_getElem hk)).1

theorem tileLoops_typed {cs : List Cut} {s : Shape} (h : List.Forall₂ CutOk cs s) (hs : NonNeg s)
    {ts : List (List Arg)} (e : tileLoops cs s = some ts) : ∀ t ∈ ts, List.Forall₂ PieceTyped cs t := by
  induction h generalizing ts with
  | nil =>
    simp only [tileLoops, Option.some.injEq] at e
    subst e
    simp
  | @cons c d cs s hc hcs ih =>
    have hs' : NonNeg s := fun d hd => hs d (by simp [hd])
    obtain ⟨ts', e', _⟩ := tileLoops_ok hcs hs'
    obtain ⟨l, el, _⟩ := cut_args hc (hs d (by simp))
    rw [tileLoops_cons el e', Option.some.injEq] at e
    subst e
    intro t ht
    obtain ⟨as, has, ht⟩ := List.mem_flatMap.1 ht
    obtain ⟨a, ha, rfl⟩ := List.mem_map.1 ht
    exact .cons (cut_typed hc el a ha) (ih hs' e' as has)

theorem typed_toArg {cs : List Cut} {t : List Arg} (h : List.Forall₂ PieceTyped cs t) :
    (List.zipWith Cut.typed cs t).map SArg.toArg = t ∧ (∀ a ∈ List.zipWith Cut.typed cs t, FitsArg a) ∧
      (List.zipWith Cut.typed cs t).length = t.length := by
  induction h with
  | nil => exact ⟨rfl, by simp, rfl⟩
  | @cons c a cs t h _ ih =>
    obtain ⟨h1, h2, h3⟩ := ih
    have key : (c.typed a).toArg = a ∧ FitsArg (c.typed a) := by
      cases c with
      | keep =>
        cases a with
        | all => exact ⟨rfl, by simp [Cut.typed, FitsArg, SArg.allT, Describes]⟩
        | _ => exact h.elim
      | dyn n =>
        cases a with
        | ivl v => exact ⟨by simp [Cut.typed, SArg.toArg, SArg.allT, dynamic], by simp [Cut.typed, FitsArg, Describes, dynamic]⟩
        | _ => exact h.elim
      | fixed N =>
        cases a with
        | ivl v => exact ⟨by simp [Cut.typed, SArg.toArg, SArg.allT, dynamic],
            by simp only [Cut.typed, FitsArg, Describes]; exact ⟨fun h => absurd rfl h, fun _ => h⟩⟩
        | _ => exact h.elim
    refine ⟨by rw [List.zipWith_cons_cons, List.map_cons, h1, key.1], ?_, by simp [h3]⟩
    intro x hx
    rw [List.zipWith_cons_cons] at hx
    rcases List.mem_cons.1 hx with rfl | hx
    · exact key.2
    · exact h2 x hx

theorem hasIndex_iff (t : List Arg) (i : Index) : hasIndex t i = true ↔ TileHas t i := by
  induction t generalizing i with
  | nil => cases i <;> simp [hasIndex, TileHas]
  | cons a t ih =>
    cases i with
    | nil => cases a <;> simp [hasIndex, TileHas]
    | cons x i =>
      cases a <;> simp [hasIndex, TileHas, ArgHas, ih, InIvl]

theorem crop_pieces {t : List Arg} {s : Shape} (ht : List.Forall₂ PieceOf t s) :
    List.Forall₂ (fun d d' : Dim => Covers d d' ∧ d'.stride = d.stride) s (s.crop t) := by
  induction ht with
  | nil => exact .nil
  | @cons a d t s ha _ ih =>
    rw [crop_cons]
    rcases ha with rfl | ⟨v, rfl, h0, h1, h2⟩
    · exact .cons ⟨⟨le_refl _, le_refl _⟩, rfl⟩ ih
    · exact .cons ⟨⟨h1, h2⟩, rfl⟩ ih

theorem find_zip {R : Dim → Dim → Prop} {s s' : Shape} (h : List.Forall₂ R s s') (is : List Nat) (k : Nat) (d' : Dim)
    (e : (((is.zip s').find? fun p => p.1 == k).map Prod.snd) = some d') :
    ∃ d, (((is.zip s).find? fun p => p.1 == k).map Prod.snd) = some d ∧ R d d' := by
  induction h generalizing is with
  | nil => simp at e
  | @cons a b s s' hab _ ih =>
    cases is with
    | nil => simp at e
    | cons j is =>
      rw [List.zip_cons_cons, List.find?_cons] at e ⊢
      by_cases hj : j = k
      · subst hj
        simp only [beq_self_eq_true, Option.map_some, Option.some.injEq] at e ⊢
        subst e
        exact ⟨a, rfl, hab⟩
      · have : (j == k) = false := by simpa using hj
        simp only [this] at e ⊢
        exact ih is e

theorem find_zip_none {R : Dim → Dim → Prop} {s s' : Shape} (h : List.Forall₂ R s s') (is : List Nat) (k : Nat)
    (e : (((is.zip s').find? fun p => p.1 == k).map Prod.snd) = none) :
    (((is.zip s).find? fun p => p.1 == k).map Prod.snd) = none := by
  induction h generalizing is with
  | nil => simp
  | @cons a b s s' hab _ ih =>
    cases is with
    | nil => simp
    | cons j is =>
      rw [List.zip_cons_cons, List.find?_cons] at e ⊢
      by_cases hj : j = k
      · subst hj
        simp at e
      · have : (j == k) = false := by simpa using hj
        simp only [this] at e ⊢
        exact ih is e

section
variable {cs : List Cut} {lb : Int} {dims : List SDim} {is : List Nat} {rhs : EinExpr α} {t : List Arg}

theorem einTile_vals (hty : List.Forall₂ PieceTyped cs t) (ht : List.Forall₂ PieceOf t (values dims))
    (hf : ∀ d ∈ dims, Fits d.ty d.val) :
    values (typedView dims (List.zipWith Cut.typed cs t)) = (values dims).crop t ∧
    (∀ d ∈ typedView dims (List.zipWith Cut.typed cs t), Fits d.ty d.val) ∧
    typedViewAssert dims (List.zipWith Cut.typed cs t) = true := by
  obtain ⟨h1, h2, h3⟩ := typed_toArg hty
  have hl : t.length = dims.length := by simpa [values] using ht.length_eq
  obtain ⟨g1, g2, g3, _⟩ := C83_view_type dims (List.zipWith Cut.typed cs t) (by rw [h3, hl]) hf h2
  rw [h1] at g1
  exact ⟨g1, g2, g3⟩

theorem typedView_fixed {cs : List Cut} {t : List Arg} {dims : List SDim} (hty : List.Forall₂ PieceTyped cs t)
    (hl : t.length = dims.length) (k : Nat) (N : Int) (hk : cs[k]? = some (.fixed N)) :
    ((typedView dims (List.zipWith Cut.typed cs t))[k]?.map fun d => (d.ty.extent, d.val.extent)) = some (N, N) := by
  induction hty generalizing dims k with
  | nil => simp at hk
  | @cons c a cs t h hty ih =>
    obtain ⟨d, dims, rfl⟩ : ∃ d ds, dims = d :: ds := by
      cases dims with
      | nil => simp at hl
      | cons d ds => exact ⟨d, ds, rfl⟩
    have hex : ∃ x, typedView (d :: dims) (List.zipWith Cut.typed (c :: cs) (a :: t)) =
        x :: typedView dims (List.zipWith Cut.typed cs t) ∧
        ∀ N, c = .fixed N → (x.ty.extent, x.val.extent) = (N, N) := by
      cases c with
      | keep => exact ⟨_, rfl, by simp⟩
      | dyn n =>
        cases a with
        | ivl v => exact ⟨_, rfl, by simp⟩
        | _ => exact h.elim
      | fixed N =>
        cases a with
        | ivl v =>
          refine ⟨_, rfl, ?_⟩
          intro N' e
          obtain rfl : N = N' := by simpa using e
          have h' : v.extent = N := h
          subst h'
          simp [Cut.typed, SArg.rangeWithStride, SArg.allT, dynamic, SDim.rangeInterval]
          unfold DimT.make ciInit
          dsimp only
          split_ifs <;> rfl
        | _ => exact h.elim
    obtain ⟨x, e, hx⟩ := hex
    rw [e]
    cases k with
    | zero =>
      simp only [List.getElem?_cons_zero, Option.some.injEq] at hk
      rw [List.getElem?_cons_zero, Option.map_some, hx N hk]
    | succ k =>
      rw [List.getElem?_cons_succ] at hk ⊢
      exact ih (by simpa using hl) k hk

theorem Spec.TileInput.fits (H : TileInput dims is lb rhs) : ∀ d ∈ dims, Fits d.ty d.val :=
  (H.input.typed ⟨.arr (some lb) dims, is⟩ (List.mem_cons_self ..)).2

theorem einTile_shape (H : TileInput dims is lb rhs) (hty : List.Forall₂ PieceTyped cs t)
    (ht : List.Forall₂ PieceOf t (values dims)) :
    einDims (einTile cs (some lb) dims is t : EinOp α).op = (values dims).crop t :=
  (einTile_vals hty ht H.fits).1

theorem einTile_length (H : TileInput dims is lb rhs) (ht : List.Forall₂ PieceOf t (values dims)) :
    ((values dims).crop t).length = is.length := by
  rw [← (crop_pieces ht).length_eq]
  have := (H.input.typed _ (List.mem_cons_self ..)).1
  simp only [values, List.length_map]
  exact this.symm

theorem einInput_einTile (H : TileInput dims is lb rhs) (hty : List.Forall₂ PieceTyped cs t)
    (ht : List.Forall₂ PieceOf t (values dims)) : EinInput (einTile cs (some lb) dims is t) rhs := by
  have hsh := einTile_shape H hty ht
  obtain ⟨b', hb', ea⟩ := tiled_address (a := ⟨some lb, values dims⟩) rfl ht
  have hbox : ∀ i, InBox ((values dims).crop t) i → InBox (values dims) i := fun i hi =>
    ((tiled_inBox_iff ht i).1 hi).1
  refine ⟨?_, ?_, ?_, ?_, ?_, ?_⟩
  · intro o ho
    rcases List.mem_cons.1 ho with rfl | ho
    · refine ⟨?_, (einTile_vals hty ht H.fits).2.1⟩
      have := congrArg List.length hsh
      simp only [einTile, einDims, List.length_map] at this ⊢
      rw [this, einTile_length H ht]
    · exact H.input.typed o (by simp [ho])
  · intro o ho
    rcases List.mem_cons.1 ho with rfl | ho
    · rw [hsh]
      exact tiled_nonNeg ht (H.input.nonNeg _ (List.mem_cons_self ..))
    · exact H.input.nonNeg o (by simp [ho])
  · intro o ho
    rcases List.mem_cons.1 ho with rfl | ho
    · intro p q k d e hp hq hd he
      have hpq : p = q := by
        have hp' : is[p]? = some k := hp
        have hq' : is[q]? = some k := hq
        obtain ⟨h1, e1⟩ := List.getElem?_eq_some_iff.1 hp'
        obtain ⟨h2, e2⟩ := List.getElem?_eq_some_iff.1 hq'
        exact (H.nodup.getElem_inj_iff).1 (e1.trans e2.symm)
      subst hpq
      rw [hd, Option.some.injEq] at he
      subst he
      exact ⟨rfl, rfl⟩
    · exact H.input.consistent o (by simp [ho])
  · intro o ho
    rcases List.mem_cons.1 ho with rfl | ho
    · intro hn
      exact absurd (show (ArrayRef.crop ⟨some lb, values dims⟩ t).base = none from hn) (by rw [hb']; simp)
    · exact H.input.backed o (by simp [ho])
  · rw [hsh]
    intro i j h1 h2 h
    have hinj : Injective (values dims) := H.input.injective
    refine hinj i j (hbox i h1) (hbox j h2) ?_
    have e1 := ea i (inBox_length (hbox i h1))
    have e2 := ea j (inBox_length (hbox j h2))
    have h' : offsetOf (ArrayRef.crop ⟨some lb, values dims⟩ t).shape i =
      offsetOf (ArrayRef.crop ⟨some lb, values dims⟩ t).shape j := h
    simp only at e1 e2
    omega
  · intro o ho a hel hoa
    obtain ⟨b, i, hb, hi, rfl⟩ := hel
    rw [show (typedView dims (List.zipWith Cut.typed cs t)).map SDim.val = (values dims).crop t from hsh] at hi hoa
    have hb2 : (ArrayRef.crop ⟨some lb, values dims⟩ t).base = some b := hb
    rw [hb', Option.some.injEq] at hb2
    subst hb2
    have e1 := ea i (inBox_length (hbox i hi))
    refine H.input.separate o ho _ ⟨lb, i, rfl, hbox i hi, rfl⟩ ?_
    have e2 : b' + offsetOf ((values dims).crop t) i = lb + offsetOf (values dims) i := e1
    rw [e2] at hoa
    exact hoa

theorem einAssert_einTile (H : TileInput dims is lb rhs) (hty : List.Forall₂ PieceTyped cs t)
    (ht : List.Forall₂ PieceOf t (values dims)) : einAssert (einTile cs (some lb) dims is t) rhs = true := by
  have hi := einInput_einTile (cs := cs) H hty ht
  have hsh := einTile_shape H hty ht
  rw [C92_reduce _ _ hi.typed]
  have hw := (C92_reduce _ _ H.input.typed).1 H.assert
  intro k o ho d hd
  obtain ⟨w1, w2⟩ := hw k o ho d hd
  refine ⟨fun d0 hd0 => ?_, fun hn => w2 ?_⟩
  · unfold dimFor at hd0
    rw [hsh] at hd0
    obtain ⟨e0, he0, hc, hst⟩ := find_zip (crop_pieces ht) is k d0 hd0
    have hmem : e0 ∈ values dims := by
      rw [Option.map_eq_some_iff] at he0
      obtain ⟨p, hp, rfl⟩ := he0
      exact (List.of_mem_zip (List.mem_of_find?_eq_some hp)).2
    have hne : e0.stride ≠ 0 := by
      obtain ⟨sd, hsd, rfl⟩ := List.mem_map.1 hmem
      exact H.strides sd hsd
    obtain ⟨_, w4⟩ := w1 e0 he0
    have w5 := w4 hne
    refine ⟨fun h => absurd (hst ▸ h) hne, fun _ => ?_⟩
    unfold Covers at *
    omega
  · unfold dimFor at hn ⊢
    rw [hsh] at hn
    exact find_zip_none (crop_pieces ht) is k hn

theorem loopIndex_einTile (H : TileInput dims is lb rhs) (hty : List.Forall₂ PieceTyped cs t)
    (ht : List.Forall₂ PieceOf t (values dims)) (r : Index) (hr : InBox ((values dims).crop t) r) (i : Index) :
    (LoopIndex (einTile cs (some lb) dims is t :: leaves rhs) i ∧ pick is i = r) ↔
    (LoopIndex ((⟨.arr (some lb) dims, is⟩ : EinOp α) :: leaves rhs) i ∧ pick is i = r) := by
  have hsh := einTile_shape (α := α) H hty ht
  have hu : ∀ k, OpUses (einTile cs (some lb) dims is t : EinOp α) k ↔
      OpUses (⟨.arr (some lb) dims, is⟩ : EinOp α) k := fun k => Iff.rfl
  have hin : pick is i = r → (OpInRange (einTile cs (some lb) dims is t : EinOp α) i ↔
      OpInRange (⟨.arr (some lb) dims, is⟩ : EinOp α) i) := by
    intro e
    show InBox ((typedView dims (List.zipWith Cut.typed cs t)).map SDim.val) (pick is i) ↔
      InBox (dims.map SDim.val) (pick is i)
    rw [show (typedView dims (List.zipWith Cut.typed cs t)).map SDim.val = (values dims).crop t from hsh, e]
    exact ⟨fun _ => ((tiled_inBox_iff ht r).1 hr).1, fun _ => hr⟩
  have hrank : loopRank (einTile cs (some lb) dims is t :: leaves rhs) =
      loopRank ((⟨.arr (some lb) dims, is⟩ : EinOp α) :: leaves rhs) := rfl
  refine and_congr_left fun e => ?_
  unfold LoopIndex
  rw [hrank]
  simp only [List.mem_cons, forall_eq_or_imp, hin e, hu]

/-- The loop indices for an element, listed. -/
theorem contributes_exists (H : TileInput dims is lb rhs) (r : Index) :
    ContributesTo (⟨.arr (some lb) dims, is⟩ : EinOp α) rhs r
      ((boxList (einLoopShape (⟨.arr (some lb) dims, is⟩ : EinOp α) rhs)).filter fun i => pick is i = r) := by
  refine ⟨(boxList_pairwise _).sublist List.filter_sublist, fun i => ?_⟩
  rw [List.mem_filter, mem_loop H.input H.assert]
  simp

theorem Spec.ContributesTo.unique {lhs : EinOp α} {r : Index} {l l' : List Index} (h : ContributesTo lhs rhs r l)
    (h' : ContributesTo lhs rhs r l') : l = l' :=
  loopIndices_unique h.1 h'.1 fun i => (h.2 i).trans (h'.2 i).symm

/-- One tile. -/
theorem reduceTile_step (H : TileInput dims is lb rhs) (hty : List.Forall₂ PieceTyped cs t)
    (ht : List.Forall₂ PieceOf t (values dims)) (debug : Bool) (f : α → α → α) (init : Option α) (m0 m : Mem α)
    (hm : ∀ x, (∀ r, InBox (values dims) r → x ≠ lb + offsetOf (values dims) r) → m x = m0 x) :
    ∃ m', reduceTile debug f init cs (some lb) dims is rhs t m = some m' ∧
      (∀ r l, InBox ((values dims).crop t) r → ContributesTo (⟨.arr (some lb) dims, is⟩ : EinOp α) rhs r l →
        m' (lb + offsetOf (values dims) r) = updated f init m0 rhs l (m (lb + offsetOf (values dims) r))) ∧
      ∀ x, (∀ r, InBox ((values dims).crop t) r → x ≠ lb + offsetOf (values dims) r) → m' x = m x := by
  have hin := einInput_einTile (cs := cs) H hty ht
  have has := einAssert_einTile (cs := cs) H hty ht
  have hsh := einTile_shape (cs := cs) H hty ht
  have hnn : NonNeg (values dims) := H.input.nonNeg _ (List.mem_cons_self ..)
  obtain ⟨b', hb', ea⟩ := tiled_address (a := ⟨some lb, values dims⟩) rfl ht
  have hbox : ∀ i, InBox ((values dims).crop t) i → InBox (values dims) i := fun i hi =>
    ((tiled_inBox_iff ht i).1 hi).1
  have ea' : ∀ i, InBox ((values dims).crop t) i →
      b' + offsetOf ((values dims).crop t) i = lb + offsetOf (values dims) i := fun i hi =>
    ea i (inBox_length (hbox i hi))
  obtain ⟨m1, hm1, f1, f2⟩ : ∃ m1 : Mem α, fillReduced init (ArrayRef.crop ⟨some lb, values dims⟩ t) m = m1 ∧
      (∀ i, InBox ((values dims).crop t) i → m1 (lb + offsetOf (values dims) i) =
        init.getD (m (lb + offsetOf (values dims) i))) ∧
      ∀ x, (∀ i, InBox ((values dims).crop t) i → x ≠ lb + offsetOf (values dims) i) → m1 x = m x := by
    cases init with
    | none => exact ⟨m, rfl, fun _ _ => rfl, fun _ _ => rfl⟩
    | some v =>
      obtain ⟨g1, g2⟩ := C19_fill (ArrayRef.crop ⟨some lb, values dims⟩ t) b' hb' (tiled_nonNeg ht hnn) v m
      refine ⟨_, rfl, fun i hi => ?_, fun x hx => g2 x fun i hi => ?_⟩
      · rw [← ea' i hi]; exact g1 i hi
      · intro e; exact hx i hi (e.trans (ea' i hi))
  obtain ⟨m', hm', h1, h2⟩ := C41_fold f (einTile cs (some lb) dims is t) rhs m1 hin has b'
    (typedView dims (List.zipWith Cut.typed cs t)) (by unfold einTile; simp only [hb'])
  refine ⟨m', ?_, ?_, ?_⟩
  · unfold reduceTile einReduceDebug
    rw [(einTile_vals hty ht H.fits).2.2, has, hm1]
    simp only [requireAssert, Bool.not_true, Bool.and_false, Bool.false_eq_true, if_false, Option.bind_eq_bind,
      Option.bind_some]
    exact hm'
  · intro r l hr hl
    have hsh2 : (typedView dims (List.zipWith Cut.typed cs t)).map SDim.val = (values dims).crop t := hsh
    obtain ⟨l', g1, g2, g3⟩ := h1 r (by rw [hsh2]; exact hr)
    have : l' = l := by
      refine ContributesTo.unique (lhs := (⟨.arr (some lb) dims, is⟩ : EinOp α)) ⟨g1, fun i => ?_⟩ hl
      exact (g2 i).trans (loopIndex_einTile H hty ht r hr i)
    subst this
    rw [hsh2, ea' r hr] at g3
    rw [g3, f1 r hr]
    unfold updated
    have hval : ∀ i ∈ l', valueAt m1 i rhs = valueAt m0 i rhs := by
      intro i hi
      have hli := ((g2 i).1 hi).1
      refine valueAt_congr (fun o ho => hli.2.1 o (by simp [ho])) (fun o ho => hin.backed o (by simp [ho])) ?_
      intro o ho a hoa
      have hna : ∀ r, InBox (values dims) r → a ≠ lb + offsetOf (values dims) r := by
        rintro r hr rfl
        exact H.input.separate o ho _ ⟨lb, r, rfl, hr, rfl⟩ hoa
      rw [f2 a fun r hr => hna r (hbox r hr), hm a hna]
    clear g1 g2 g3 hl
    generalize init.getD (m (lb + offsetOf (values dims) r)) = x
    induction l' generalizing x with
    | nil => rfl
    | cons i l ih =>
      rw [List.foldl_cons, List.foldl_cons, hval i (by simp)]
      exact ih (fun j hj => hval j (by simp [hj])) _
  · intro x hx
    rw [h2 x, f2 x hx]
    rintro ⟨b, i, hb, hi, rfl⟩
    have hb2 : (ArrayRef.crop ⟨some lb, values dims⟩ t).base = some b := hb
    rw [hb', Option.some.injEq] at hb2
    subst hb2
    have hsh2 : (typedView dims (List.zipWith Cut.typed cs t)).map SDim.val = (values dims).crop t := hsh
    rw [hsh2] at hi hx
    exact hx i hi (ea' i hi)

/-- All tiles. -/
theorem reduceTiles_spec (H : TileInput dims is lb rhs) (ts : List (List Arg))
    (hty : ∀ t ∈ ts, List.Forall₂ PieceTyped cs t) (ht : ∀ t ∈ ts, List.Forall₂ PieceOf t (values dims))
    (debug : Bool) (f : α → α → α) (init : Option α) (m0 m : Mem α)
    (hm : ∀ x, (∀ r, InBox (values dims) r → x ≠ lb + offsetOf (values dims) r) → m x = m0 x) :
    ∃ m', reduceTiles debug f init cs (some lb) dims is rhs ts m = some m' ∧
      (∀ r l, InBox (values dims) r → ContributesTo (⟨.arr (some lb) dims, is⟩ : EinOp α) rhs r l →
        m' (lb + offsetOf (values dims) r) =
          (updated f init m0 rhs l)^[tilesWith ts r] (m (lb + offsetOf (values dims) r))) ∧
      ∀ x, (∀ r, InBox (values dims) r → x ≠ lb + offsetOf (values dims) r) → m' x = m x := by
  induction ts generalizing m with
  | nil => exact ⟨m, rfl, fun _ _ _ _ => rfl, fun _ _ => rfl⟩
  | cons t ts ih =>
    have ht0 := ht t (by simp)
    obtain ⟨m1, e1, g1, g2⟩ := reduceTile_step (cs := cs) H (hty t (by simp)) ht0 debug f init m0 m hm
    have hbox : ∀ i, InBox ((values dims).crop t) i → InBox (values dims) i := fun i hi =>
      ((tiled_inBox_iff ht0 i).1 hi).1
    have hfr : ∀ x, (∀ r, InBox (values dims) r → x ≠ lb + offsetOf (values dims) r) → m1 x = m x :=
      fun x hx => g2 x fun r hr => hx r (hbox r hr)
    obtain ⟨m', e2, k1, k2⟩ := ih (fun t h => hty t (by simp [h])) (fun t h => ht t (by simp [h])) m1
      (fun x hx => (hfr x hx).trans (hm x hx))
    refine ⟨m', ?_, ?_, fun x hx => (k2 x hx).trans (hfr x hx)⟩
    · unfold reduceTiles at e2 ⊢
      rw [List.foldlM_cons, e1]
      exact e2
    · intro r l hr hl
      rw [k1 r l hr hl]
      unfold tilesWith
      rw [List.countP_cons]
      by_cases hin : InBox ((values dims).crop t) r
      · rw [if_pos ((hasIndex_iff t r).2 ((tiled_inBox_iff ht0 r).1 hin).2), g1 r l hin hl, Function.iterate_succ_apply]
      · have : hasIndex t r = false := by
          rw [Bool.eq_false_iff]
          intro h
          exact hin ((tiled_inBox_iff ht0 r).2 ⟨hr, (hasIndex_iff t r).1 h⟩)
        rw [this, g2]
        · simp
        · intro r' hr' e
          have hinj : Injective (values dims) := H.input.injective
          have : r = r' := hinj r r' hr (hbox r' hr') (by omega)
          subst this
          exact hin hr'

end
end Nda
