import Verif.Lemmas.ResampleProgram
import Verif.Props.RoundingResample
import Verif.Props.KernelsBuild
/-
C85: the program that resizes images (examples/resample/resample.cpp).
-/
namespace Nda
open Spec Kernel

section
variable {α β : Type}

/-- C85: `copy` between arrays of different types converts each element, provided all the conversions are defined. -/
theorem C85_copy (conv : α → Option β) (src dst : ArrayRef) (sb db : Int) (hs : src.base = some sb)
    (hd : dst.base = some db) (hl : List.length src.shape = dst.shape.length) (hnn : NonNeg dst.shape)
    (hinj : Injective dst.shape) (ms : Mem α) (md : Mem β)
    (hdef : ∀ i, InBox dst.shape i → ∃ v, conv (ms (sb + offsetOf src.shape i)) = some v) :
    ∃ md', copyBetween conv src dst ms md = some md' ∧
      (∀ i, InBox dst.shape i → conv (ms (sb + offsetOf src.shape i)) = some (md' (db + offsetOf dst.shape i))) ∧
      ∀ x, (∀ i, InBox dst.shape i → x ≠ db + offsetOf dst.shape i) → md' x = md x := by
  classical
  have hmem := mem_copyTrace hs hd hl hnn
  let g : Int → β := fun x => if h : ∃ i, InBox dst.shape i ∧ x = db + offsetOf dst.shape i then
    (hdef h.choose h.choose_spec.1).choose else md x
  have hg : ∀ i, InBox dst.shape i →
      conv (ms (sb + offsetOf src.shape i)) = some (g (db + offsetOf dst.shape i)) := by
    intro i hi
    have h : ∃ j, InBox dst.shape j ∧ db + offsetOf dst.shape i = db + offsetOf dst.shape j := ⟨i, hi, rfl⟩
    have e : h.choose = i := (hinj i h.choose hi h.choose_spec.1 (by have := h.choose_spec.2; omega)).symm
    have : g (db + offsetOf dst.shape i) = (hdef h.choose h.choose_spec.1).choose := dif_pos h
    rw [this, ← (hdef h.choose h.choose_spec.1).choose_spec, e]
  obtain ⟨md', e, h1, h2⟩ := foldlM_convert conv ms (copyTrace src dst) md g (by
    intro p hp
    obtain ⟨i, hi, rfl⟩ := (hmem p).1 hp
    exact hg i hi)
  refine ⟨md', e, ?_, ?_⟩
  · intro i hi
    rw [hg i hi, h1 (sb + offsetOf src.shape i, db + offsetOf dst.shape i) ((hmem _).2 ⟨i, hi, rfl⟩)]
  · intro x hx
    refine h2 x fun p hp e => ?_
    obtain ⟨i, hi, rfl⟩ := (hmem p).1 hp
    exact hx i hi e.symm

/-- C85: if one of the conversions is undefined, so is the copy. -/
theorem C85_copy_undefined (conv : α → Option β) (src dst : ArrayRef) (sb db : Int) (hs : src.base = some sb)
    (hd : dst.base = some db) (hl : List.length src.shape = dst.shape.length) (hnn : NonNeg dst.shape)
    (ms : Mem α) (md : Mem β) (h : ∃ i, InBox dst.shape i ∧ conv (ms (sb + offsetOf src.shape i)) = none) :
    copyBetween conv src dst ms md = none := by
  obtain ⟨i, hi, e⟩ := h
  exact foldlM_convert_none conv ms _ md ⟨_, (mem_copyTrace hs hd hl hnn _).2 ⟨i, hi, rfl⟩, e⟩

end

section
variable {F : Type} {o : FloatOps F} {q : QuantumOps F}

/-- C85: the program, for any arithmetic: component `c` of pixel `(x, y)` is the conversion of the limited value of the
weighted sum of the components `c` of the input; if one of these conversions is undefined, so is the program. -/
theorem C85_program (w h newW newH : Int) (hi : ImageSize w h 4) (ho : ImageSize newW newH 4) (h64 : 64 ≤ newH)
    (hfit1 : 64 * w * 4 ≤ 9223372036854775807) (hfit2 : 64 * newW * 4 ≤ 9223372036854775807) (kernel : F → F)
    (cacheIn cacheOut bi bo : Int) (ax ay : Int → Int) (buf : Interval → Nat → Int) (pixels : Mem Int) (m : Mem F)
    (rateX rateY : Rational) (hrx : Rational.mk2 (BitVec.ofInt 64 newW) (BitVec.ofInt 64 w) = some rateX)
    (hry : Rational.mk2 (BitVec.ofInt 64 newH) (BitVec.ofInt 64 h) = some rateY)
    (hkx : KernelsCover o (planarOf w h 4 bi).x (planarOf newW newH 4 bo).x rateX kernel)
    (hky : KernelsCover o (planarOf w h 4 bi).y (planarOf newW newH 4 bo).y rateY kernel)
    (hsep : ∀ kx ky, buildKernels o ⟨0, w⟩ ⟨0, newW⟩ rateX kernel = some kx →
      buildKernels o ⟨0, h⟩ ⟨0, newH⟩ rateY kernel = some ky →
      SeparateObjects (planarOf w h 4 bi) (planarOf newW newH 4 bo) bi bo kx ky ax ay buf) (debug : Bool) :
    ∃ kx ky : Dense1 (Dense1 F),
      (∀ x p, InInterval ⟨0, newW⟩ x → kernelPosition x rateX = some p →
        GoodKernel o ⟨0, w⟩ (weight o kernel rateX p) (kx.data x)) ∧
      (∀ y p, InInterval ⟨0, newH⟩ y → kernelPosition y rateY = some p →
        GoodKernel o ⟨0, h⟩ (weight o kernel rateY p) (ky.data y)) ∧
      ((∀ x y c, IsComponent newW newH x y c → ∃ v, q.toQuantum (clampQuantum o q (kernelSum o (kx.data x) fun i =>
          kernelSum o (ky.data y) fun j => q.ofQuantum (pixels (componentAddress cacheIn w i j c)))) = some v) →
        ∃ pixels', resizeImage o q debug w h newW newH kernel cacheIn cacheOut bi bo ax ay buf pixels m = some pixels' ∧
          (∀ x y c, IsComponent newW newH x y c →
            q.toQuantum (clampQuantum o q (kernelSum o (kx.data x) fun i =>
              kernelSum o (ky.data y) fun j => q.ofQuantum (pixels (componentAddress cacheIn w i j c)))) =
              some (pixels' (componentAddress cacheOut newW x y c))) ∧
          ∀ p, p < cacheOut ∨ cacheOut + 4 * (newW * newH) ≤ p → pixels' p = pixels p) ∧
      ((∃ x y c, IsComponent newW newH x y c ∧ q.toQuantum (clampQuantum o q (kernelSum o (kx.data x) fun i =>
          kernelSum o (ky.data y) fun j => q.ofQuantum (pixels (componentAddress cacheIn w i j c)))) = none) →
        resizeImage o q debug w h newW newH kernel cacheIn cacheOut bi bo ax ay buf pixels m = none) := by
  set A := planarOf w h 4 bi with hA
  set B := planarOf newW newH 4 bo with hB
  have dyn : ∀ v : Int, Describes (-9) v := fun v h => absurd rfl h
  have properA : ProperDim A.x ∧ ProperDim A.y ∧ ProperDim A.c :=
    ⟨⟨⟨dyn _, dyn _, fun _ => rfl⟩, by show 0 < w; have := hi.width; omega⟩,
      ⟨⟨dyn _, dyn _, dyn _⟩, by show 0 < h; have := hi.height; omega⟩, ⟨dyn _, dyn _, dyn _⟩, by show (0 : Int) < 4; omega⟩
  have properB : ProperDim B.x ∧ ProperDim B.y ∧ ProperDim B.c :=
    ⟨⟨⟨dyn _, dyn _, fun _ => rfl⟩, by show 0 < newW; have := ho.width; omega⟩,
      ⟨⟨dyn _, dyn _, dyn _⟩, by show 0 < newH; omega⟩, ⟨dyn _, dyn _, dyn _⟩, by show (0 : Int) < 4; omega⟩
  -- the input
  obtain ⟨m1, e1, val1, -⟩ := C85_copy (fun v => some (q.ofQuantum v)) (pixelRef cacheIn w h) A.ref cacheIn bi
    (by rw [pixelRef_eq hi]) rfl (by rw [pixelRef_eq hi]; rfl) (planar_nonNeg hi) (planar_injective hi) pixels
    (constructImage o A m) (fun i _ => ⟨_, rfl⟩)
  have val1' : ∀ x y c, IsComponent w h x y c →
      m1 (pixelAddress A bi x y c) = q.ofQuantum (pixels (componentAddress cacheIn w x y c)) := by
    intro x y c hc
    have := val1 [x, y, c] (planar_inBox.2 ⟨x, y, c, rfl, hc⟩)
    rw [pixelRef_eq hi, pixel_address] at this
    have e := Option.some.inj this
    rw [e]
    congr 1
    exact (planar_address x y c).symm
  -- the output
  set m2 := constructImage o B m1 with hm2
  obtain ⟨kx, ky, gx, gy, sep, hres⟩ := C51_resample o A B bi bo rateX rateY kernel ax ay buf m2 rfl rfl properA properB
    h64 (fun c h => h) hfit1 hfit2 hkx hky hsep
  have val2 : ∀ x y c, IsComponent w h x y c →
      m2 (pixelAddress A bi x y c) = q.ofQuantum (pixels (componentAddress cacheIn w x y c)) := by
    intro x y c hc
    have hno : ¬ PixelOf B bo (pixelAddress A bi x y c) := by
      refine sep.in_out _ ⟨x, y, c, ?_, ?_, ?_, rfl⟩
      · show 0 ≤ x ∧ x < 0 + w; rw [zero_add]; exact hc.1
      · show 0 ≤ y ∧ y < 0 + h; rw [zero_add]; exact hc.2.1
      · show 0 ≤ c ∧ c < 0 + 4; rw [zero_add]; exact hc.2.2
    rw [← val1' x y c hc]
    refine (C19_fill ⟨B.base, values B.dims⟩ bo rfl (planar_nonNeg ho) o.zero m1).2 _ ?_
    intro i hi e
    obtain ⟨x', y', z', rfl, k1, k2, k3⟩ := planar_inBox.1 hi
    refine hno ⟨x', y', z', ?_, ?_, ?_, ?_⟩
    · show 0 ≤ x' ∧ x' < 0 + newW; rwa [zero_add]
    · show 0 ≤ y' ∧ y' < 0 + newH; rwa [zero_add]
    · show 0 ≤ z' ∧ z' < 0 + 4; rwa [zero_add]
    · rw [e]; exact planar_address x' y' z'
  obtain ⟨m3, e3, val3, -⟩ := hres debug
  obtain ⟨upd, -⟩ := update_values B.ref bo rfl (planar_nonNeg ho) (planar_injective ho) (clampQuantum o q) m3
  set m4 := updateValues B.ref (clampQuantum o q) m3 with hm4
  have ext : ∀ {k : Dense1 F} {f g : Int → F}, (∀ i, InInterval k.dom i → f i = g i) → kernelSum o k f = kernelSum o k g := by
    intro k f g hfg
    unfold kernelSum
    have hl : ∀ i ∈ (List.range k.dom.extent.toNat).map fun j : Nat => k.dom.min + (j : Int), f i = g i := by
      intro i hi
      obtain ⟨j, hj, rfl⟩ := List.mem_map.1 hi
      have := List.mem_range.1 hj
      exact hfg _ ⟨by omega, by omega⟩
    generalize (List.range k.dom.extent.toNat).map (fun j : Nat => k.dom.min + (j : Int)) = l at hl
    generalize o.zero = z
    induction l generalizing z with
    | nil => rfl
    | cons a l ih =>
      rw [List.foldl_cons, List.foldl_cons, hl a (by simp), ih fun i hi => hl i (by simp [hi])]
  have val4 : ∀ x y c, IsComponent newW newH x y c →
      m4 (bo + offsetOf B.ref.shape [x, y, c]) = clampQuantum o q (kernelSum o (kx.data x) fun i =>
        kernelSum o (ky.data y) fun j => q.ofQuantum (pixels (componentAddress cacheIn w i j c))) := by
    intro x y c hc
    have hx : inRangeOf B.x x := by show 0 ≤ x ∧ x < 0 + newW; rw [zero_add]; exact hc.1
    have hy : inRangeOf B.y y := by show 0 ≤ y ∧ y < 0 + newH; rw [zero_add]; exact hc.2.1
    have hcc : inRangeOf B.c c := by show 0 ≤ c ∧ c < 0 + 4; rw [zero_add]; exact hc.2.2
    rw [upd _ (planar_inBox.2 ⟨x, y, c, rfl, hc⟩)]
    congr 1
    have e := val3 x y c hx hy hcc
    have ea : bo + offsetOf B.ref.shape [x, y, c] = pixelAddress B bo x y c := planar_address x y c
    rw [ea, e]
    obtain ⟨px, hpx, -⟩ := hkx x hx
    obtain ⟨py, hpy, -⟩ := hky y hy
    have k1 := (gx x px hx hpx).1
    have k2 := (gy y py hy hpy).1
    refine ext fun i hi => ext fun j hj => ?_
    have hi' := k1 i hi
    have hj' := k2 j hj
    refine val2 i j c ⟨?_, ?_, hc.2.2⟩
    · have : 0 ≤ i ∧ i < 0 + w := hi'
      rwa [zero_add] at this
    · have : 0 ≤ j ∧ j < 0 + h := hj'
      rwa [zero_add] at this
  have hrun : resizeImage o q debug w h newW newH kernel cacheIn cacheOut bi bo ax ay buf pixels m =
      copyBetween q.toQuantum B.ref (pixelRef cacheOut newW newH) m4 pixels := by
    unfold resizeImage magickToArray arrayToMagick
    rw [planarImage_eq hi, planarImage_eq ho]
    dsimp only
    rw [e1]
    simp only [Option.bind_eq_bind, Option.bind_some, Option.pure_def]
    have r1 : Rational.mk2 (BitVec.ofInt 64 (planarOf newW newH 4 bo).x.val.extent)
        (BitVec.ofInt 64 (planarOf w h 4 bi).x.val.extent) = some rateX := hrx
    have r2 : Rational.mk2 (BitVec.ofInt 64 (planarOf newW newH 4 bo).y.val.extent)
        (BitVec.ofInt 64 (planarOf w h 4 bi).y.val.extent) = some rateY := hry
    rw [r1, r2]
    simp only [Option.bind_some]
    rw [e3]
    rfl
  have hshape : (pixelRef cacheOut newW newH).shape = [⟨0, newW, 4⟩, ⟨0, newH, newW * 4⟩, ⟨0, 4, 1⟩] := by
    rw [pixelRef_eq ho]
  have hbase : (pixelRef cacheOut newW newH).base = some cacheOut := by rw [pixelRef_eq ho]
  refine ⟨kx, ky, gx, gy, ?_, ?_⟩
  · intro hdef
    obtain ⟨px', e, v, u⟩ := C85_copy q.toQuantum B.ref (pixelRef cacheOut newW newH) bo cacheOut rfl hbase
      (by rw [hshape]; rfl) (by rw [hshape]; exact pixel_nonNeg ho) (by
        rw [hshape]
        intro i j hi hj e
        obtain ⟨x, y, z, rfl, k⟩ := pixel_inBox.1 hi
        obtain ⟨x', y', z', rfl, k'⟩ := pixel_inBox.1 hj
        have e' : componentAddress cacheOut newW x y z = componentAddress cacheOut newW x' y' z' := by
          rw [← pixel_address (h := newH), ← pixel_address (h := newH)]
          exact congrArg _ e
        obtain ⟨rfl, rfl, rfl⟩ := component_injective k k' e'
        rfl) m4 pixels (by
        rw [hshape]
        intro i hi
        obtain ⟨x, y, z, rfl, k⟩ := pixel_inBox.1 hi
        rw [val4 x y z k]
        exact hdef x y z k)
    rw [hshape] at v u
    refine ⟨px', hrun.trans e, ?_, ?_⟩
    · intro x y c hc
      have := v [x, y, c] (pixel_inBox.2 ⟨x, y, c, rfl, hc⟩)
      rw [val4 x y c hc, pixel_address] at this
      exact this
    · intro p hp
      refine u p fun i hi e => ?_
      obtain ⟨x, y, z, rfl, k⟩ := pixel_inBox.1 hi
      rw [pixel_address] at e
      have := component_range (cache := cacheOut) k
      omega
  · rintro ⟨x, y, c, hc, hn⟩
    rw [hrun]
    refine C85_copy_undefined q.toQuantum B.ref _ bo cacheOut rfl hbase (by rw [hshape]; rfl)
      (by rw [hshape]; exact pixel_nonNeg ho) m4 pixels ⟨[x, y, c], ?_, ?_⟩
    · rw [hshape]; exact pixel_inBox.2 ⟨x, y, c, rfl, hc⟩
    · rw [val4 x y c hc]; exact hn

/-- C85: the objects of the program can be placed without overlap, whatever the sizes: one after the other. -/
theorem C85_placement (w h newW newH : Int) (hi : ImageSize w h 4) (ho : ImageSize newW newH 4) (kernel : F → F)
    (rateX rateY : Rational) (bo kxa kya t : Int) (hbo : bo = 4 * (w * h)) (hkxa : kxa = bo + 4 * (newW * newH))
    (hkya : kya = kxa + newW * w) (ht : t = kya + newH * h)
    (hkx : KernelsCover o (planarOf w h 4 0).x (planarOf newW newH 4 bo).x rateX kernel)
    (hky : KernelsCover o (planarOf w h 4 0).y (planarOf newW newH 4 bo).y rateY kernel) (kx ky : Dense1 (Dense1 F))
    (ekx : buildKernels o ⟨0, w⟩ ⟨0, newW⟩ rateX kernel = some kx)
    (eky : buildKernels o ⟨0, h⟩ ⟨0, newH⟩ rateY kernel = some ky) :
    SeparateObjects (planarOf w h 4 0) (planarOf newW newH 4 bo) 0 bo kx ky (fun x => kxa + x * w) (fun y => kya + y * h)
      (fun _ n => t + n * (256 * (w + newW))) := by
  have hw := hi.width
  have hh := hi.height
  have hW := ho.width
  have hH := ho.height
  have pin : ∀ p, PixelOf (planarOf w h 4 0) 0 p → 0 ≤ p ∧ p < bo := fun p hp => by
    have := planar_pixel_range hi hp
    omega
  have pout : ∀ p, PixelOf (planarOf newW newH 4 bo) bo p → bo ≤ p ∧ p < kxa := fun p hp => by
    have := planar_pixel_range ho hp
    omega
  have index : ∀ {n N : Int} {rate : Rational} {ks : Dense1 (Dense1 F)}, 1 ≤ N →
      (∀ x, InInterval ⟨0, N⟩ x → ∃ p, kernelPosition x rate = some p ∧
        ∃ i, InInterval ⟨0, n⟩ i ∧ o.nonZero (weight o kernel rate p i) = true) →
      buildKernels o ⟨0, n⟩ ⟨0, N⟩ rate kernel = some ks → ∀ {x r}, KernelIndex ks x r →
      0 ≤ x ∧ x < N ∧ 0 ≤ r - (ks.data x).dom.min ∧ r - (ks.data x).dom.min < n := by
    intro n N rate ks hN hc e x r hr
    obtain ⟨⟨a1, a2⟩, a3, a4⟩ := kernel_index (in_ := ⟨0, n⟩) (out := ⟨0, N⟩) (by show 0 ≤ N; omega) hc e hr
    simp only at a1 a2 a4
    exact ⟨a1, by omega, a3, a4⟩
  have dx : ∀ {x r}, KernelIndex kx x r → _ := fun {x r} hr => index hW hkx ekx hr
  have dy : ∀ {x r}, KernelIndex ky x r → _ := fun {x r} hr => index hH hky eky hr
  have cell : ∀ {n N x d base : Int}, 1 ≤ n → 0 ≤ x ∧ x < N ∧ 0 ≤ d ∧ d < n → base ≤ base + x * n + d ∧
      base + x * n + d < base + N * n := by
    intro n N x d base hn ⟨a1, a2, a3, a4⟩
    have b1 : 0 ≤ x * n := mul_nonneg a1 (by omega)
    have b2 : (x + 1) * n ≤ N * n := mul_le_mul_of_nonneg_right (by omega) (by omega)
    rw [add_mul] at b2
    constructor <;> omega
  have unique : ∀ {n N x d x' d' : Int}, 1 ≤ n → 0 ≤ x ∧ x < N ∧ 0 ≤ d ∧ d < n → 0 ≤ x' ∧ x' < N ∧ 0 ≤ d' ∧ d' < n →
      x * n + d = x' * n + d' → x = x' := by
    intro n N x d x' d' hn ⟨_, _, a3, a4⟩ ⟨_, _, b3, b4⟩ e
    rcases lt_trichotomy x x' with h | h | h
    · have : (x + 1) * n ≤ x' * n := mul_le_mul_of_nonneg_right (by omega) (by omega)
      rw [add_mul] at this; omega
    · exact h
    · have : (x' + 1) * n ≤ x * n := mul_le_mul_of_nonneg_right (by omega) (by omega)
      rw [add_mul] at this; omega
  have cx : ∀ p, KernelCell kx (fun x => kxa + x * w) p → kxa ≤ p ∧ p < kya := by
    rintro p ⟨x, r, hr, rfl⟩
    have := cell (base := kxa) hw (dx hr)
    unfold kernelAddress
    simp only
    omega
  have cy : ∀ p, KernelCell ky (fun y => kya + y * h) p → kya ≤ p ∧ p < t := by
    rintro p ⟨x, r, hr, rfl⟩
    have := cell (base := kya) hh (dy hr)
    unfold kernelAddress
    simp only
    omega
  have ct : ∀ (yo : Interval) (n : Nat) p, n < 3 →
      TempCell (planarOf w h 4 0) (planarOf newW newH 4 bo) (fun _ n => t + n * (256 * (w + newW))) yo n p →
      t + n * (256 * (w + newW)) ≤ p ∧ p < t + n * (256 * (w + newW)) + 256 * (w + newW) := by
    rintro yo n p hn ⟨h1, h2⟩
    dsimp only at h1 h2
    refine ⟨h1, lt_of_lt_of_le h2 ?_⟩
    have : tempSize (planarOf w h 4 0) (planarOf newW newH 4 bo) n ≤ 256 * (w + newW) := by
      unfold tempSize
      split
      · show 64 * newW * 4 ≤ _; omega
      · show 64 * w * 4 ≤ _; omega
    omega
  have c0 : 0 ≤ bo := by have : 0 ≤ w * h := mul_nonneg (by omega) (by omega); omega
  have c1 : bo ≤ kxa := by have : 0 ≤ newW * newH := mul_nonneg (by omega) (by omega); omega
  have c2 : kxa ≤ kya := by have : 0 ≤ newW * w := mul_nonneg (by omega) (by omega); omega
  have c3 : kya ≤ t := by have : 0 ≤ newH * h := mul_nonneg (by omega) (by omega); omega
  constructor
  · intro x y c x' y' c' h1 h2 h3 h1' h2' h3' e
    have conv : ∀ {x y c : Int}, inRangeOf (planarOf newW newH 4 bo).x x → inRangeOf (planarOf newW newH 4 bo).y y →
        inRangeOf (planarOf newW newH 4 bo).c c → InBox (values (planarOf newW newH 4 bo).dims) [x, y, c] := by
      intro x y c h1 h2 h3
      exact inBox_three.2 ⟨x, y, c, rfl, h1, h2, h3⟩
    have := planar_injective ho (buf := bo) [x, y, c] [x', y', c'] (conv h1 h2 h3) (conv h1' h2' h3') (by
      have a := planar_address (w := newW) (h := newH) (c := 4) (buf := bo) x y c
      have b := planar_address (w := newW) (h := newH) (c := 4) (buf := bo) x' y' c'
      omega)
    simpa using this
  · intro x r x' r' h1 h2 e
    have a1 := dx h1
    have a2 := dx h2
    unfold kernelAddress at e
    simp only at e
    have : x = x' := unique hw a1 a2 (by omega)
    subst this
    exact ⟨rfl, by omega⟩
  · intro x r x' r' h1 h2 e
    have a1 := dy h1
    have a2 := dy h2
    unfold kernelAddress at e
    simp only at e
    have : x = x' := unique hh a1 a2 (by omega)
    subst this
    exact ⟨rfl, by omega⟩
  · intro p h1 h2
    have := cx p h1
    have := cy p h2
    omega
  · intro p h1 h2
    have := pin p h1
    have := pout p h2
    omega
  · intro p h1
    have := pin p h1
    exact ⟨fun h2 => by have := cx p h2; omega, fun h2 => by have := cy p h2; omega⟩
  · intro p h1
    have := pout p h1
    exact ⟨fun h2 => by have := cx p h2; omega, fun h2 => by have := cy p h2; omega⟩
  · intro yo n p hn hp
    have h1 := ct yo n p hn hp
    have h2 : 0 ≤ (n : Int) * (256 * (w + newW)) := mul_nonneg (by omega) (by omega)
    exact ⟨fun h3 => by have := pin p h3; omega, fun h3 => by have := pout p h3; omega,
      fun h3 => by have := cx p h3; omega, fun h3 => by have := cy p h3; omega⟩
  · intro yo n k p hn hk hne h1 h2
    have h1 := ct yo n p hn h1
    have h2 := ct yo k p hk h2
    have h3 : 0 ≤ 256 * (w + newW) := by omega
    rcases Nat.lt_or_gt_of_ne hne with h | h
    · have : ((n : Int) + 1) * (256 * (w + newW)) ≤ k * (256 * (w + newW)) := mul_le_mul_of_nonneg_right (by omega) h3
      rw [add_mul] at this
      omega
    · have : ((k : Int) + 1) * (256 * (w + newW)) ≤ n * (256 * (w + newW)) := mul_le_mul_of_nonneg_right (by omega) h3
      rw [add_mul] at this
      omega

/-- The limited value. -/
theorem clamp_value {Finite : F → Prop} {val : F → ℚ} {u η Ω : ℚ} (R : RoundsFloat o Finite val u η Ω)
    (C : ConvertsQuantum q Finite val) (v : F) (hv : Finite v) :
    q.toQuantum (clampQuantum o q v) = some ⌊limited q.maxQuantum (val v)⌋ := by
  obtain ⟨t1, t2⟩ := C.ofQuantum q.maxQuantum C.top le_rfl
  obtain ⟨a1, a2⟩ := R.min v (q.ofQuantum q.maxQuantum) hv t1
  obtain ⟨z1, z2⟩ := R.zero
  have key : Finite (clampQuantum o q v) ∧ val (clampQuantum o q v) = limited q.maxQuantum (val v) := by
    unfold clampQuantum floatMax limited
    rw [← t2, ← a2, ← z2]
    by_cases h : val (o.min v (q.ofQuantum q.maxQuantum)) < val o.zero
    · rw [if_pos ((C.lt _ _ a1 z1).2 h)]
      exact ⟨z1, (max_eq_left h.le).symm⟩
    · rw [if_neg (fun h' => h ((C.lt _ _ a1 z1).1 h'))]
      exact ⟨a1, (max_eq_right (not_lt.1 h)).symm⟩
  have ht : (0 : ℚ) ≤ q.maxQuantum := by exact_mod_cast C.top
  have h1 : 0 ≤ limited q.maxQuantum (val v) := le_max_left ..
  have h2 : limited q.maxQuantum (val v) ≤ q.maxQuantum := max_le ht (min_le_right ..)
  rw [C.toQuantum _ key.1 (by rw [key.2]; exact h1) (by rw [key.2]; linarith), key.2]

theorem limited_lipschitz (top : Int) (a b : ℚ) : |limited top a - limited top b| ≤ |a - b| := by
  unfold limited
  have h1 := abs_max_sub_max_le_abs (min a top) (min b top) (0 : ℚ)
  have h2 : |min a (top : ℚ) - min b top| ≤ |a - b| := by
    have := abs_min_sub_min_le_max a (top : ℚ) b top
    simpa using this
  rw [max_comm 0, max_comm 0]
  exact h1.trans h2

/-- C85: with rounding: each component of the result is a weighted mean of the components of the input, limited to the
range of components, with an error of at most `E` and then without its fraction. -/
theorem C85_rounding {Finite : F → Prop} {val : F → ℚ} {u η Ω : ℚ} (R : RoundsFloat o Finite val u η Ω)
    (C : ConvertsQuantum q Finite val) (w h newW newH : Int) (hi : ImageSize w h 4) (ho : ImageSize newW newH 4)
    (h64 : 64 ≤ newH) (hfit1 : 64 * w * 4 ≤ 9223372036854775807) (hfit2 : 64 * newW * 4 ≤ 9223372036854775807)
    (kernel : F → F) (cacheIn cacheOut bi bo : Int) (ax ay : Int → Int) (buf : Interval → Nat → Int)
    (pixels : Mem Int) (m : Mem F) (rateX rateY : Rational)
    (hrx : Rational.mk2 (BitVec.ofInt 64 newW) (BitVec.ofInt 64 w) = some rateX)
    (hry : Rational.mk2 (BitVec.ofInt 64 newH) (BitVec.ofInt 64 h) = some rateY) (tapsX tapsY : Nat)
    (hkx : ∀ x, InInterval ⟨0, newW⟩ x → ∃ p, kernelPosition x rateX = some p ∧
      GoodWeights Finite val u Ω tapsX ⟨0, w⟩ (weight o kernel rateX p))
    (hky : ∀ y, InInterval ⟨0, newH⟩ y → ∃ p, kernelPosition y rateY = some p ∧
      GoodWeights Finite val u Ω tapsY ⟨0, h⟩ (weight o kernel rateY p))
    (hsep : ∀ kx ky, buildKernels o ⟨0, w⟩ ⟨0, newW⟩ rateX kernel = some kx →
      buildKernels o ⟨0, h⟩ ⟨0, newH⟩ rateY kernel = some ky →
      SeparateObjects (planarOf w h 4 bi) (planarOf newW newH 4 bo) bi bo kx ky ax ay buf)
    (hpix : ∀ x y c, IsComponent w h x y c → 0 ≤ pixels (componentAddress cacheIn w x y c) ∧
      pixels (componentAddress cacheIn w x y c) ≤ q.maxQuantum)
    (hΩ : ∀ x y px py, InInterval ⟨0, newW⟩ x → InInterval ⟨0, newH⟩ y →
      kernelPosition x rateX = some px → kernelPosition y rateY = some py →
      stageBound u η tapsX (condition val ⟨0, w⟩ (weight o kernel rateX px))
        (stageBound u η tapsY (condition val ⟨0, h⟩ (weight o kernel rateY py)) q.maxQuantum) ≤ Ω) (debug : Bool) :
    ∃ pixels', resizeImage o q debug w h newW newH kernel cacheIn cacheOut bi bo ax ay buf pixels m = some pixels' ∧
      (∀ x y c px py, IsComponent newW newH x y c → kernelPosition x rateX = some px → kernelPosition y rateY = some py →
        ∃ v : ℚ, pixels' (componentAddress cacheOut newW x y c) = ⌊v⌋ ∧
        |v - limited q.maxQuantum (weightedMean val w h (weight o kernel rateX px) (weight o kernel rateY py) fun i j =>
          pixels (componentAddress cacheIn w i j c))| ≤
          stageBound u η tapsX (condition val ⟨0, w⟩ (weight o kernel rateX px))
            (stageBound u η tapsY (condition val ⟨0, h⟩ (weight o kernel rateY py)) q.maxQuantum) -
            q.maxQuantum * condition val ⟨0, h⟩ (weight o kernel rateY py) *
              condition val ⟨0, w⟩ (weight o kernel rateX px)) ∧
      ∀ p, p < cacheOut ∨ cacheOut + 4 * (newW * newH) ≤ p → pixels' p = pixels p := by
  have cover : ∀ {a b : SDim} {rate : Rational} {n : Nat}, (∀ x, inRangeOf b x → ∃ p, kernelPosition x rate = some p ∧
      GoodWeights Finite val u Ω n a.val.toInterval (weight o kernel rate p)) → KernelsCover o a b rate kernel := by
    intro a b rate n h x hx
    obtain ⟨p, hp, G⟩ := h x hx
    obtain ⟨i, hi, hw⟩ := Finset.exists_ne_zero_of_sum_ne_zero G.sum
    have hi' : InInterval a.val.toInterval i := Finset.mem_Ico.1 hi
    exact ⟨p, hp, i, hi', (R.nonZero _ (G.finite i hi')).2 hw⟩
  obtain ⟨kx, ky, gx, gy, hrun, -⟩ := C85_program (q := q) w h newW newH hi ho h64 hfit1 hfit2 kernel cacheIn cacheOut bi bo
    ax ay buf pixels m rateX rateY hrx hry (cover (a := (planarOf w h 4 bi).x) (b := (planarOf newW newH 4 bo).x) hkx)
    (cover (a := (planarOf w h 4 bi).y) (b := (planarOf newW newH 4 bo).y) hky) hsep debug
  have ht : (0 : ℚ) ≤ q.maxQuantum := by exact_mod_cast C.top
  have pixel : ∀ x y c px py, IsComponent newW newH x y c → kernelPosition x rateX = some px →
      kernelPosition y rateY = some py → ∃ v : ℚ,
      q.toQuantum (clampQuantum o q (kernelSum o (kx.data x) fun i => kernelSum o (ky.data y) fun j =>
        q.ofQuantum (pixels (componentAddress cacheIn w i j c)))) = some ⌊v⌋ ∧
      |v - limited q.maxQuantum (weightedMean val w h (weight o kernel rateX px) (weight o kernel rateY py) fun i j =>
          pixels (componentAddress cacheIn w i j c))| ≤
          stageBound u η tapsX (condition val ⟨0, w⟩ (weight o kernel rateX px))
            (stageBound u η tapsY (condition val ⟨0, h⟩ (weight o kernel rateY py)) q.maxQuantum) -
            q.maxQuantum * condition val ⟨0, h⟩ (weight o kernel rateY py) *
              condition val ⟨0, w⟩ (weight o kernel rateX px) := by
    intro x y c px py hc hpx hpy
    have hx : InInterval ⟨0, newW⟩ x := ⟨hc.1.1, by show x < 0 + newW; have := hc.1.2; omega⟩
    have hy : InInterval ⟨0, newH⟩ y := ⟨hc.2.1.1, by show y < 0 + newH; have := hc.2.1.2; omega⟩
    obtain ⟨px', hpx', Gx⟩ := hkx x hx
    obtain ⟨py', hpy', Gy⟩ := hky y hy
    obtain rfl : px = px' := Option.some.inj (hpx.symm.trans hpx')
    obtain rfl : py = py' := Option.some.inj (hpy.symm.trans hpy')
    have inside : ∀ i j, InInterval ⟨0, w⟩ i → InInterval ⟨0, h⟩ j → IsComponent w h i j c := by
      intro i j ⟨a1, a2⟩ ⟨b1, b2⟩
      simp only at a1 a2 b1 b2
      exact ⟨⟨a1, by omega⟩, ⟨b1, by omega⟩, hc.2.2⟩
    have value : ∀ i j, InInterval ⟨0, w⟩ i → InInterval ⟨0, h⟩ j →
        Finite (q.ofQuantum (pixels (componentAddress cacheIn w i j c))) ∧
        val (q.ofQuantum (pixels (componentAddress cacheIn w i j c))) = pixels (componentAddress cacheIn w i j c) := by
      intro i j hi hj
      obtain ⟨b1, b2⟩ := hpix i j c (inside i j hi hj)
      exact C.ofQuantum _ b1 b2
    have key := resampled_pixel R (gx x px hx hpx) (gy y py hy hpy) Gx Gy
      (fun i j => q.ofQuantum (pixels (componentAddress cacheIn w i j c))) ht
      (fun i j hi hj => by
        obtain ⟨f, e⟩ := value i j hi hj
        obtain ⟨b1, b2⟩ := hpix i j c (inside i j hi hj)
        refine ⟨f, ?_⟩
        rw [e, abs_of_nonneg (by exact_mod_cast b1)]
        exact_mod_cast b2) (hΩ x y px py hx hy hpx hpy)
    have e : weightedMean val w h (weight o kernel rateX px) (weight o kernel rateY py)
        (fun i j => (pixels (componentAddress cacheIn w i j c) : ℚ)) =
        (∑ i ∈ spanOf ⟨0, w⟩, ∑ j ∈ spanOf ⟨0, h⟩, val (weight o kernel rateX px i) * val (weight o kernel rateY py j) *
          val (q.ofQuantum (pixels (componentAddress cacheIn w i j c)))) /
          (weightSum val ⟨0, w⟩ (weight o kernel rateX px) * weightSum val ⟨0, h⟩ (weight o kernel rateY py)) := by
      unfold weightedMean
      congr 1
      refine Finset.sum_congr rfl fun i hi => Finset.sum_congr rfl fun j hj => ?_
      rw [(value i j (Finset.mem_Ico.1 hi) (Finset.mem_Ico.1 hj)).2]
    rw [← e] at key
    exact ⟨_, clamp_value R C _ key.1, (limited_lipschitz q.maxQuantum _ _).trans key.2⟩
  have hp : ∀ x y c, IsComponent newW newH x y c → ∃ px py, kernelPosition x rateX = some px ∧ kernelPosition y rateY = some py := by
    intro x y c hc
    obtain ⟨px, hpx, -⟩ := hkx x ⟨hc.1.1, by show x < 0 + newW; have := hc.1.2; omega⟩
    obtain ⟨py, hpy, -⟩ := hky y ⟨hc.2.1.1, by show y < 0 + newH; have := hc.2.1.2; omega⟩
    exact ⟨px, py, hpx, hpy⟩
  obtain ⟨pixels', e, hval, hrest⟩ := hrun (by
    intro x y c hc
    obtain ⟨px, py, hpx, hpy⟩ := hp x y c hc
    obtain ⟨v, k1, -⟩ := pixel x y c px py hc hpx hpy
    exact ⟨_, k1⟩)
  refine ⟨pixels', e, ?_, hrest⟩
  intro x y c px py hc hpx hpy
  obtain ⟨v, k1, k2⟩ := pixel x y c px py hc hpx hpy
  exact ⟨v, (Option.some.inj (k1.symm.trans (hval x y c hc))).symm, k2⟩

end

theorem exact_rounds (Ω : ℚ) : RoundsFloat (fieldOps ℚ) (fun _ => True) id 0 0 Ω where
  unit := le_rfl
  underflow := le_rfl
  zero := ⟨trivial, rfl⟩
  add a b _ _ _ := ⟨trivial, by simp [fieldOps]⟩
  mul a b _ _ _ := ⟨trivial, by simp [fieldOps]⟩
  div a b _ _ _ _ := ⟨trivial, by simp [fieldOps]⟩
  nonZero a _ := by simp [fieldOps]
  sub a b _ _ _ := ⟨trivial, by simp [fieldOps]⟩
  ofIndex i _ := ⟨trivial, by simp [fieldOps]⟩
  one := ⟨trivial, rfl⟩
  min a b _ _ := ⟨trivial, by
    show (if b < a then b else a) = Min.min a b
    split <;> rename_i h
    · exact (min_eq_right h.le).symm
    · exact (min_eq_left (not_lt.1 h)).symm⟩

theorem exact_converts {top : Int} (h : 0 ≤ top) : ConvertsQuantum (exactQuantum top) (fun _ => True) id where
  top := h
  ofQuantum v _ _ := ⟨trivial, rfl⟩
  lt a b _ _ := by simp [exactQuantum]
  toQuantum a _ h0 h1 := by
    have h1 : a < top + 1 := h1
    have h0 : 0 ≤ a := h0
    show (if -1 < a ∧ a < top + 1 then some (if 0 ≤ a then ⌊a⌋ else ⌈a⌉) else none) = _
    rw [if_pos ⟨by linarith, h1⟩, if_pos h0]
    rfl

/-- In exact arithmetic the weights are those of the specification. -/
theorem weight_exact {k : ℚ → ℚ} {n newN x : Int} {rate p : Rational} (hv : value rate = (newN : ℚ) / n)
    (hp : value p = ((x : ℚ) + 1 / 2) / value rate - 1 / 2) (i : Int) :
    weight (fieldOps ℚ) k rate p i = sampleWeight k n newN x i := by
  have e1 : value p = samplePosition n newN x := by
    rw [hp, hv, div_div_eq_mul_div]
    rfl
  have e2 : (fieldOps ℚ).min (value rate) 1 = min ((newN : ℚ) / n) 1 := by
    rw [← hv]
    exact ((exact_rounds 0).min (value rate) 1 trivial trivial).2
  unfold sampleWeight
  rw [← e1, ← e2]
  rfl

/-- The rate, the positions and the sums of the weights. -/
theorem exact_kernels {k : ℚ → ℚ} (hk : PolynomialKernel k) {n newN : Int} (hn : 1 ≤ n ∧ n < 2 ^ 29)
    (hN : 1 ≤ newN ∧ newN < 2 ^ 29) :
    ∃ rate, Rational.mk2 (BitVec.ofInt 64 newN) (BitVec.ofInt 64 n) = some rate ∧ value rate = (newN : ℚ) / n ∧
      ∀ x, InInterval ⟨0, newN⟩ x → ∃ p, kernelPosition x rate = some p ∧
        (∀ i, weight (fieldOps ℚ) k rate p i = sampleWeight k n newN x i) ∧
        0 < ∑ i ∈ spanOf ⟨0, n⟩, sampleWeight k n newN x i := by
  have hn' : n < 536870912 := by have := hn.2; norm_num at this; exact this
  have hN' : newN < 536870912 := by have := hN.2; norm_num at this; exact this
  obtain ⟨rate, e, hc, hv, hp, h1, h2⟩ := rate_make (n := newN) (d := n) hN.1 (by omega) hn.1 (by omega)
  refine ⟨rate, e, hv, fun x hx => ?_⟩
  have hx0 : 0 ≤ x := hx.1
  have hx1 : x < 0 + newN := hx.2
  obtain ⟨p, ep, -, vp⟩ := C46_position x rate hc hp (by rw [abs_of_nonneg hx0]; norm_num; omega)
    (by norm_num; omega) (by norm_num; omega)
  have hw := weight_exact (k := k) hv vp
  refine ⟨p, ep, hw, ?_⟩
  have hnq : (0 : ℚ) < n := by exact_mod_cast (by omega : 0 < n)
  have := C62_sum_positive hk ⟨0, n⟩ ⟨0, newN⟩ rate hc hp ⟨by simp, by
    rw [hv]; push_cast; rw [zero_add, zero_add, div_mul_cancel₀ _ hnq.ne']⟩ x hx p vp
  refine lt_of_lt_of_eq this (Finset.sum_congr rfl fun i _ => hw i)

/-- In exact arithmetic a stage has no error. -/
theorem stageBound_exact (n : Nat) (c y : ℚ) : stageBound 0 0 n c y = y * c := by
  simp [stageBound, tapError, sumError]

theorem goodWeights_exact {n : Int} (hn : 0 ≤ n) {w : Int → ℚ} (hw : 0 < ∑ i ∈ spanOf ⟨0, n⟩, w i) {Ω : ℚ}
    (h1 : ∑ i ∈ spanOf ⟨0, n⟩, |w i| ≤ Ω) (h2 : condition id ⟨0, n⟩ w ≤ Ω) :
    GoodWeights (fun _ => True) id 0 Ω n.toNat ⟨0, n⟩ w where
  finite _ _ := trivial
  support i j hi hj _ _ := by
    have : 0 ≤ i := hi.1
    have : j < 0 + n := hj.2
    omega
  sum := hw.ne'
  small := by simp [sumError]
  size := by simpa using h1
  quotient := by simpa [sumError] using h2

theorem exact_cover {k : ℚ → ℚ} {n newN : Int} {rate : Rational} {x : Int} {p : Rational}
    (hp : ∀ i, weight (fieldOps ℚ) k rate p i = sampleWeight k n newN x i)
    (hs : 0 < ∑ i ∈ spanOf ⟨0, n⟩, sampleWeight k n newN x i) :
    ∃ i, InInterval ⟨0, n⟩ i ∧ (fieldOps ℚ).nonZero (weight (fieldOps ℚ) k rate p i) = true := by
  obtain ⟨i, hi, hne⟩ := Finset.exists_ne_zero_of_sum_ne_zero hs.ne'
  exact ⟨i, Finset.mem_Ico.1 hi, ((exact_rounds 0).nonZero _ trivial).2 (by rw [hp i]; exact hne)⟩

/-- C85: in exact arithmetic, for each of the kernels made of polynomials and all sizes below 2^29, the program ends without an
undefined operation or a failing assertion, and each component of the result is the weighted mean of the specification,
limited to the range of components, without its fraction. -/
theorem C85_exact (top : Int) (htop : 0 ≤ top) {k : ℚ → ℚ} (hk : PolynomialKernel k) (w h newW newH : Int)
    (hw : 1 ≤ w ∧ w < 2 ^ 29) (hh : 1 ≤ h ∧ h < 2 ^ 29) (hW : 1 ≤ newW ∧ newW < 2 ^ 29) (hH : 64 ≤ newH ∧ newH < 2 ^ 29)
    (cacheIn cacheOut bi bo : Int) (ax ay : Int → Int) (buf : Interval → Nat → Int) (pixels : Mem Int) (m : Mem ℚ)
    (hpix : ∀ x y c, IsComponent w h x y c → 0 ≤ pixels (componentAddress cacheIn w x y c) ∧
      pixels (componentAddress cacheIn w x y c) ≤ top)
    (hsep : ∀ rateX rateY kx ky, Rational.mk2 (BitVec.ofInt 64 newW) (BitVec.ofInt 64 w) = some rateX →
      Rational.mk2 (BitVec.ofInt 64 newH) (BitVec.ofInt 64 h) = some rateY →
      buildKernels (fieldOps ℚ) ⟨0, w⟩ ⟨0, newW⟩ rateX k = some kx →
      buildKernels (fieldOps ℚ) ⟨0, h⟩ ⟨0, newH⟩ rateY k = some ky →
      SeparateObjects (planarOf w h 4 bi) (planarOf newW newH 4 bo) bi bo kx ky ax ay buf) (debug : Bool) :
    ∃ pixels', resizeImage (fieldOps ℚ) (exactQuantum top) debug w h newW newH k cacheIn cacheOut bi bo ax ay buf pixels m =
        some pixels' ∧
      (∀ x y c, IsComponent newW newH x y c → pixels' (componentAddress cacheOut newW x y c) =
        ⌊limited top (resizedValue k w h newW newH (fun i j => pixels (componentAddress cacheIn w i j c)) x y)⌋) ∧
      ∀ p, p < cacheOut ∨ cacheOut + 4 * (newW * newH) ≤ p → pixels' p = pixels p := by
  have hH' : 1 ≤ newH ∧ newH < 2 ^ 29 := ⟨by omega, hH.2⟩
  obtain ⟨rateX, ex, vx, hkx⟩ := exact_kernels hk hw hW
  obtain ⟨rateY, ey, vy, hky⟩ := exact_kernels hk hh hH'
  have bound : ∀ n : Int, n < 2 ^ 29 → 64 * n * 4 ≤ 9223372036854775807 := by
    intro n hn
    norm_num at hn
    omega
  obtain ⟨kx, ky, gx, gy, hrun, -⟩ := C85_program (o := fieldOps ℚ) (q := exactQuantum top) w h newW newH (image_size hw hh)
    (image_size hW hH') hH.1 (bound w hw.2) (bound newW hW.2) k cacheIn cacheOut bi bo ax ay buf pixels m rateX rateY ex ey
    (fun x hx => by
      obtain ⟨p, hp, h1, h2⟩ := hkx x hx
      exact ⟨p, hp, exact_cover h1 h2⟩)
    (fun y hy => by
      obtain ⟨p, hp, h1, h2⟩ := hky y hy
      exact ⟨p, hp, exact_cover h1 h2⟩)
    (fun kx ky h1 h2 => hsep rateX rateY kx ky ex ey h1 h2) debug
  have pixel : ∀ x y c, IsComponent newW newH x y c →
      (exactQuantum top).toQuantum (clampQuantum (fieldOps ℚ) (exactQuantum top) (kernelSum (fieldOps ℚ) (kx.data x) fun i =>
        kernelSum (fieldOps ℚ) (ky.data y) fun j =>
          (exactQuantum top).ofQuantum (pixels (componentAddress cacheIn w i j c)))) =
      some ⌊limited top (resizedValue k w h newW newH (fun i j => pixels (componentAddress cacheIn w i j c)) x y)⌋ := by
    intro x y c hc
    have hx : InInterval ⟨0, newW⟩ x := ⟨hc.1.1, by show x < 0 + newW; have := hc.1.2; omega⟩
    have hy : InInterval ⟨0, newH⟩ y := ⟨hc.2.1.1, by show y < 0 + newH; have := hc.2.1.2; omega⟩
    obtain ⟨px, hpx, wx, sx⟩ := hkx x hx
    obtain ⟨py, hpy, wy, sy⟩ := hky y hy
    have wx' : weight (fieldOps ℚ) k rateX px = sampleWeight k w newW x := funext wx
    have wy' : weight (fieldOps ℚ) k rateY py = sampleWeight k h newH y := funext wy
    have g1 := gx x px hx hpx
    have g2 := gy y py hy hpy
    rw [wx'] at g1
    rw [wy'] at g2
    set Sx := ∑ i ∈ spanOf ⟨0, w⟩, |sampleWeight k w newW x i|
    set Sy := ∑ i ∈ spanOf ⟨0, h⟩, |sampleWeight k h newH y i|
    set cx := condition id ⟨0, w⟩ (sampleWeight k w newW x)
    set cy := condition id ⟨0, h⟩ (sampleWeight k h newH y)
    have ht : (0 : ℚ) ≤ top := by exact_mod_cast htop
    have key := resampled_pixel (exact_rounds (max (max Sx Sy) (max (max cx cy) (top * cy * cx)))) g1 g2
      (goodWeights_exact (by omega) sx (by simp [Sx]) (by simp [cx]))
      (goodWeights_exact (by omega) sy (by simp [Sy]) (by simp [cy]))
      (fun i j => (exactQuantum top).ofQuantum (pixels (componentAddress cacheIn w i j c))) ht
      (fun i j hi hj => ⟨trivial, by
        have h1 : i < 0 + w := hi.2
        have h2 : j < 0 + h := hj.2
        obtain ⟨b1, b2⟩ := hpix i j c ⟨⟨hi.1, by omega⟩, ⟨hj.1, by omega⟩, hc.2.2⟩
        show |((pixels (componentAddress cacheIn w i j c) : Int) : ℚ)| ≤ top
        rw [abs_of_nonneg (by exact_mod_cast b1)]
        exact_mod_cast b2⟩) (by rw [stageBound_exact, stageBound_exact]; simp [cx, cy])
    have e := key.2
    rw [stageBound_exact, stageBound_exact, sub_self] at e
    have e := sub_eq_zero.1 (abs_eq_zero.1 (le_antisymm e (abs_nonneg _)))
    rw [clamp_value (exact_rounds 0) (exact_converts htop) _ trivial, e]
    rfl
  obtain ⟨pixels', e, hval, hrest⟩ := hrun fun x y c hc => ⟨_, pixel x y c hc⟩
  refine ⟨pixels', e, fun x y c hc => ?_, hrest⟩
  exact (Option.some.inj ((pixel x y c hc).symm.trans (hval x y c hc))).symm

/-- C85: the same with all objects one after the other; then nothing has to be assumed about them. -/
theorem C85_placed (top : Int) (htop : 0 ≤ top) {k : ℚ → ℚ} (hk : PolynomialKernel k) (w h newW newH : Int)
    (hw : 1 ≤ w ∧ w < 2 ^ 29) (hh : 1 ≤ h ∧ h < 2 ^ 29) (hW : 1 ≤ newW ∧ newW < 2 ^ 29) (hH : 64 ≤ newH ∧ newH < 2 ^ 29)
    (cacheIn cacheOut : Int) (pixels : Mem Int) (m : Mem ℚ)
    (hpix : ∀ x y c, IsComponent w h x y c → 0 ≤ pixels (componentAddress cacheIn w x y c) ∧
      pixels (componentAddress cacheIn w x y c) ≤ top) (debug : Bool) :
    ∃ (ax ay : Int → Int) (buf : Interval → Nat → Int) (pixels' : Mem Int),
      resizeImage (fieldOps ℚ) (exactQuantum top) debug w h newW newH k cacheIn cacheOut 0 (4 * (w * h)) ax ay buf pixels m =
        some pixels' ∧
      (∀ x y c, IsComponent newW newH x y c → pixels' (componentAddress cacheOut newW x y c) =
        ⌊limited top (resizedValue k w h newW newH (fun i j => pixels (componentAddress cacheIn w i j c)) x y)⌋) ∧
      ∀ p, p < cacheOut ∨ cacheOut + 4 * (newW * newH) ≤ p → pixels' p = pixels p := by
  have hH' : 1 ≤ newH ∧ newH < 2 ^ 29 := ⟨by omega, hH.2⟩
  obtain ⟨pixels', h⟩ := C85_exact top htop hk w h newW newH hw hh hW hH cacheIn cacheOut 0 (4 * (w * h))
    (fun x => 4 * (w * h) + 4 * (newW * newH) + x * w) (fun y => 4 * (w * h) + 4 * (newW * newH) + newW * w + y * h)
    (fun _ n => 4 * (w * h) + 4 * (newW * newH) + newW * w + newH * h + n * (256 * (w + newW))) pixels m hpix (by
    intro rateX rateY kx ky ex ey e1 e2
    obtain ⟨rX, ex', -, hkx⟩ := exact_kernels hk hw hW
    obtain ⟨rY, ey', -, hky⟩ := exact_kernels hk hh hH'
    obtain rfl : rX = rateX := Option.some.inj (ex'.symm.trans ex)
    obtain rfl : rY = rateY := Option.some.inj (ey'.symm.trans ey)
    exact C85_placement w h newW newH (image_size hw hh) (image_size hW hH') k _ _ _ _ _ _ rfl rfl rfl rfl
      (fun x hx => by
        obtain ⟨p, hp, h1, h2⟩ := hkx x hx
        exact ⟨p, hp, exact_cover h1 h2⟩)
      (fun y hy => by
        obtain ⟨p, hp, h1, h2⟩ := hky y hy
        exact ⟨p, hp, exact_cover h1 h2⟩) kx ky e1 e2) debug
  exact ⟨_, _, _, pixels', h⟩

/-- C85: an image all of whose pixels have the same component `c` becomes such an image. -/
theorem C85_constant {k : ℚ → ℚ} (hk : PolynomialKernel k) (w h newW newH : Int) (hw : 1 ≤ w ∧ w < 2 ^ 29)
    (hh : 1 ≤ h ∧ h < 2 ^ 29) (hW : 1 ≤ newW ∧ newW < 2 ^ 29) (hH : 1 ≤ newH ∧ newH < 2 ^ 29) (top v : Int) (hv : 0 ≤ v ∧ v ≤ top)
    (img : Int → Int → ℚ) (himg : ∀ i j, (0 ≤ i ∧ i < w) → (0 ≤ j ∧ j < h) → img i j = v) (x y : Int) (hx : 0 ≤ x ∧ x < newW)
    (hy : 0 ≤ y ∧ y < newH) : ⌊limited top (resizedValue k w h newW newH img x y)⌋ = v := by
  obtain ⟨rateX, -, -, hkx⟩ := exact_kernels hk hw hW
  obtain ⟨rateY, -, -, hky⟩ := exact_kernels hk hh hH
  obtain ⟨-, -, -, sx⟩ := hkx x ⟨hx.1, by show x < 0 + newW; omega⟩
  obtain ⟨-, -, -, sy⟩ := hky y ⟨hy.1, by show y < 0 + newH; omega⟩
  have e : resizedValue k w h newW newH img x y = v := by
    unfold resizedValue
    rw [div_eq_iff (mul_pos sx sy).ne', Finset.sum_mul_sum, Finset.mul_sum]
    refine Finset.sum_congr rfl fun i hi => ?_
    rw [Finset.mul_sum]
    refine Finset.sum_congr rfl fun j hj => ?_
    have hi := Finset.mem_Ico.1 hi
    have hj := Finset.mem_Ico.1 hj
    simp only at hi hj
    rw [himg i j (by omega) (by omega)]
    ring
  have h1 : (0 : ℚ) ≤ v := by exact_mod_cast hv.1
  have h2 : (v : ℚ) ≤ top := by exact_mod_cast hv.2
  rw [e]
  unfold limited
  rw [min_eq_left h2, max_eq_right h1, Int.floor_intCast]

/-- C85: with an interpolating kernel, an image of the same size is a copy. -/
theorem C85_identity {k : ℚ → ℚ} (hk : Interpolating k) (w h : Int) (top : Int) (img : Int → Int → Int) (x y : Int)
    (hx : 0 ≤ x ∧ x < w) (hy : 0 ≤ y ∧ y < h) (hv : 0 ≤ img x y ∧ img x y ≤ top) :
    ⌊limited top (resizedValue k w h w h (fun i j => img i j) x y)⌋ = img x y := by
  have weights : ∀ {n x : Int}, 0 ≤ x ∧ x < n → ∀ i, sampleWeight k n n x i = if i = x then 1 else 0 := by
    intro n x hx i
    have hn : (n : ℚ) ≠ 0 := by exact_mod_cast (by omega : n ≠ 0)
    unfold sampleWeight samplePosition
    rw [div_self hn, min_self, mul_one, mul_div_assoc, div_self hn, mul_one]
    have e : (i : ℚ) - (x + 1 / 2 - 1 / 2) = ((i - x : Int) : ℚ) := by push_cast; ring
    rw [e]
    split <;> rename_i h
    · rw [h, sub_self]
      simpa using hk.1
    · exact hk.2 _ (by omega)
  have mem : ∀ {n x : Int}, 0 ≤ x ∧ x < n → x ∈ spanOf ⟨0, n⟩ := fun {n x} hx =>
    Finset.mem_Ico.2 ⟨hx.1, by show x < 0 + n; omega⟩
  have e : resizedValue k w h w h (fun i j => (img i j : ℚ)) x y = img x y := by
    unfold resizedValue
    simp only [weights hx, weights hy]
    simp [mem hx, mem hy]
  have h1 : (0 : ℚ) ≤ img x y := by exact_mod_cast hv.1
  have h2 : (img x y : ℚ) ≤ top := by exact_mod_cast hv.2
  rw [e]
  unfold limited
  rw [min_eq_left h2, max_eq_right h1, Int.floor_intCast]

/-- C85: the names of the kernels. With four of the five names the kernel is made of polynomials and interpolating; with any
other name there is no kernel. -/
theorem C85_kernels (lanczos4 : ℚ → ℚ) (name : String) :
    (name ∈ ["box", "linear", "quadratic", "cubic"] → ∃ k, parseKernel lanczos4 name = some k ∧ PolynomialKernel k ∧
      Interpolating k) ∧
    (name ∉ ["box", "linear", "quadratic", "cubic", "lanczos"] → parseKernel lanczos4 name = none) := by
  constructor
  · intro h
    simp only [List.mem_cons, List.not_mem_nil, or_false] at h
    rcases h with rfl | rfl | rfl | rfl
    · exact ⟨box, rfl, Or.inl rfl, C62_box.2.2⟩
    · exact ⟨linear, rfl, Or.inr (Or.inl rfl), C62_linear.2.2.2.2⟩
    · exact ⟨interpolatingQuadratic, rfl, Or.inr (Or.inr (Or.inl rfl)), C62_interpolating_quadratic.2.2⟩
    · exact ⟨interpolatingCubic, rfl, Or.inr (Or.inr (Or.inr (Or.inl rfl))), C62_interpolating_cubic.2.2⟩
  · intro h
    simp only [List.mem_cons, List.not_mem_nil, or_false, not_or] at h
    unfold parseKernel
    simp [h]

/-- C85, negative part: a new height of less than 64 rows makes the program fail. -/
theorem C85_small_counterexample {F : Type} (o : FloatOps F) (q : QuantumOps F) (debug : Bool) (w h newW newH : Int)
    (ho : ImageSize newW newH 4) (hH : newH < 64) (kernel : F → F) (cacheIn cacheOut bi bo : Int)
    (ax ay : Int → Int) (buf : Interval → Nat → Int) (pixels : Mem Int) (m : Mem F) :
    resizeImage o q debug w h newW newH kernel cacheIn cacheOut bi bo ax ay buf pixels m = none := by
  unfold resizeImage
  rw [planarImage_eq ho]
  have hs : ∀ a r s m, resample o debug a (planarOf newW newH 4 bo) r s kernel ax ay buf m = none := fun a r s m =>
    C51_small_counterexample o debug a _ r s kernel ax ay buf m (by show 0 < newH; have := ho.height; omega) hH
  simp only [Option.bind_eq_bind, Option.bind_eq_none_iff]
  intro a _ r _ s _ m' hm
  rw [hs] at hm
  cases hm

/-! ### binary32 -/

/-- An integer with at most 24 digits is a binary32 number. -/
theorem integer_float {v : Int} (h0 : 0 ≤ v) (h : v < 2 ^ 24) : float32.ofIndex v = some (v : ℚ) ∧ IsFloat (some (v : ℚ)) := by
  norm_num at h
  have hL : (2 : ℚ) ^ 24 ≤ largestFloat := by unfold largestFloat; norm_num
  have h0q : (0 : ℚ) ≤ v := by exact_mod_cast h0
  have hq : (v : ℚ) < 2 ^ 24 := by norm_num; exact_mod_cast h
  have hle : |(v : ℚ)| ≤ largestFloat := by rw [abs_of_nonneg h0q]; linarith
  have e : nearestBinary roundEven 24 (-149) (v : ℚ) = v := by
    have hd : lastDigit 24 (-149) (v : ℚ) ≤ 0 := by
      unfold lastDigit
      refine max_le ?_ (by norm_num)
      rcases eq_or_lt_of_le h0 with h0 | h0
      · rw [← h0]; simp
      · have : Int.log 2 |(v : ℚ)| < 24 := by
          refine (Int.lt_zpow_iff_log_lt (by norm_num) (by rw [abs_pos]; exact_mod_cast h0.ne')).1 ?_
          rw [abs_of_nonneg h0q]
          exact_mod_cast hq
        push_cast
        omega
    unfold nearestBinary
    obtain ⟨n, hn⟩ := Int.eq_ofNat_of_zero_le (by omega : 0 ≤ -lastDigit 24 (-149) (v : ℚ))
    have e1 : (v : ℚ) / (2 : ℚ) ^ lastDigit 24 (-149) (v : ℚ) = ((v * 2 ^ n : Int) : ℚ) := by
      have : lastDigit 24 (-149) (v : ℚ) = -(n : Int) := by omega
      rw [this, zpow_neg, div_inv_eq_mul, zpow_natCast]
      push_cast
      rfl
    rw [e1, roundEven_nearest.int, ← e1, div_mul_cancel₀ _ (two_zpow_pos _).ne']
  constructor
  · show finiteOr largestFloat (nearestBinary roundEven 24 (-149) (v : ℚ)) = _
    rw [e]
    exact if_pos hle
  · refine ⟨v, 0, by norm_num, ?_, by simp, by simpa using hle⟩
    rw [abs_of_nonneg h0]
    norm_num
    omega

/-- C85: binary32 and components of at most 24 bits. -/
theorem C85_float (top : Int) (h0 : 0 ≤ top) (h : top < 2 ^ 24) : ConvertsQuantum (floatQuantum top) IsFloat (fun x => x.getD 0) where
  top := h0
  ofQuantum v hv0 hv := by
    have hv : v ≤ top := hv
    obtain ⟨e, f⟩ := integer_float hv0 (lt_of_le_of_lt hv h)
    show IsFloat (float32.ofIndex v) ∧ (float32.ofIndex v).getD 0 = v
    rw [e]
    exact ⟨f, rfl⟩
  lt a b ha hb := by
    obtain ⟨n, e, -, -, rfl, -⟩ := ha
    obtain ⟨n', e', -, -, rfl, -⟩ := hb
    simp [floatQuantum]
  toQuantum a ha h1 h2 := by
    obtain ⟨n, e, -, -, rfl, -⟩ := ha
    exact (exact_converts h0).toQuantum _ trivial h1 h2

/-- C85: 8-bit images in binary32, with a kernel that has no negative values and at most four of them other than zero: each
component is the weighted mean, with an error of at most 0.00031, without its fraction. -/
theorem C85_8bit (w h newW newH : Int) (hi : ImageSize w h 4) (ho : ImageSize newW newH 4)
    (h64 : 64 ≤ newH) (hfit1 : 64 * w * 4 ≤ 9223372036854775807) (hfit2 : 64 * newW * 4 ≤ 9223372036854775807)
    (kernel : Option ℚ → Option ℚ) (cacheIn cacheOut bi bo : Int) (ax ay : Int → Int) (buf : Interval → Nat → Int)
    (pixels : Mem Int) (m : Mem (Option ℚ)) (rateX rateY : Rational)
    (hrx : Rational.mk2 (BitVec.ofInt 64 newW) (BitVec.ofInt 64 w) = some rateX)
    (hry : Rational.mk2 (BitVec.ofInt 64 newH) (BitVec.ofInt 64 h) = some rateY)
    (hkx : ∀ x, InInterval ⟨0, newW⟩ x → ∃ p, kernelPosition x rateX = some p ∧
      GoodWeights IsFloat (fun x => x.getD 0) ((2 : ℚ)⁻¹ ^ 24) largestFloat 4 ⟨0, w⟩ (weight float32 kernel rateX p) ∧
      ∀ i, InInterval ⟨0, w⟩ i → 0 ≤ (weight float32 kernel rateX p i).getD 0)
    (hky : ∀ y, InInterval ⟨0, newH⟩ y → ∃ p, kernelPosition y rateY = some p ∧
      GoodWeights IsFloat (fun x => x.getD 0) ((2 : ℚ)⁻¹ ^ 24) largestFloat 4 ⟨0, h⟩ (weight float32 kernel rateY p) ∧
      ∀ i, InInterval ⟨0, h⟩ i → 0 ≤ (weight float32 kernel rateY p i).getD 0)
    (hsep : ∀ kx ky, buildKernels float32 ⟨0, w⟩ ⟨0, newW⟩ rateX kernel = some kx →
      buildKernels float32 ⟨0, h⟩ ⟨0, newH⟩ rateY kernel = some ky →
      SeparateObjects (planarOf w h 4 bi) (planarOf newW newH 4 bo) bi bo kx ky ax ay buf)
    (hpix : ∀ x y c, IsComponent w h x y c → 0 ≤ pixels (componentAddress cacheIn w x y c) ∧
      pixels (componentAddress cacheIn w x y c) ≤ 255) (debug : Bool) :
    ∃ pixels', resizeImage float32 (floatQuantum 255) debug w h newW newH kernel cacheIn cacheOut bi bo ax ay buf pixels m =
        some pixels' ∧
      (∀ x y c px py, IsComponent newW newH x y c → kernelPosition x rateX = some px → kernelPosition y rateY = some py →
        ∃ v : ℚ, pixels' (componentAddress cacheOut newW x y c) = ⌊v⌋ ∧
        |v - weightedMean (fun x => x.getD 0) w h (weight float32 kernel rateX px) (weight float32 kernel rateY py) fun i j =>
          pixels (componentAddress cacheIn w i j c)| ≤ 31 / 100000) ∧
      ∀ p, p < cacheOut ∨ cacheOut + 4 * (newW * newH) ≤ p → pixels' p = pixels p := by
  have hη : (2 : ℚ) ^ (-150 : Int) ≤ 1 / 10 ^ 40 := by norm_num
  have hη0 := (two_zpow_pos (-150)).le
  have hu0 : (0 : ℚ) ≤ (2 : ℚ)⁻¹ ^ 24 := by positivity
  obtain ⟨s1, b1⟩ := C84_simple (y := 255) hu0 hη0 4 (by norm_num) (by norm_num)
  have hlow := stageBound_mono (n := 4) (cond := 1) (y := 255) hu0 hη0 le_rfl s1 (by norm_num)
  obtain ⟨-, b2⟩ := C84_simple (y := stageBound ((2 : ℚ)⁻¹ ^ 24) ((2 : ℚ) ^ (-150 : Int)) 4 1 255) hu0 hη0 4
    (le_trans (by norm_num) hlow) (by norm_num)
  have c2 : stageBound ((2 : ℚ)⁻¹ ^ 24) ((2 : ℚ) ^ (-150 : Int)) 4 1
      (stageBound ((2 : ℚ)⁻¹ ^ 24) ((2 : ℚ) ^ (-150 : Int)) 4 1 255) ≤ 255 + 31 / 100000 := by
    set η := (2 : ℚ) ^ (-150 : Int)
    set y1 := stageBound ((2 : ℚ)⁻¹ ^ 24) η 4 1 255
    set y2 := stageBound ((2 : ℚ)⁻¹ ^ 24) η 4 1 y1
    rw [le_div_iff₀ (by norm_num)] at b1 b2
    norm_num at b1 b2 hη
    have c1 : y1 ≤ 255 + 153 / 1000000 := by linarith
    have : η * y1 ≤ 1 / 10 ^ 37 := by nlinarith
    nlinarith
  have cx : ∀ x px, InInterval ⟨0, newW⟩ x → kernelPosition x rateX = some px →
      condition (fun x : Option ℚ => x.getD 0) ⟨0, w⟩ (weight float32 kernel rateX px) = 1 ∧
      weightSum (fun x : Option ℚ => x.getD 0) ⟨0, w⟩ (weight float32 kernel rateX px) ≠ 0 ∧
      ∀ i, InInterval ⟨0, w⟩ i → 0 ≤ (weight float32 kernel rateX px i).getD 0 := by
    intro x px hx hpx
    obtain ⟨p, h1, h2, h3⟩ := hkx x hx
    obtain rfl : px = p := Option.some.inj (hpx.symm.trans h1)
    exact ⟨condition_eq_one h2.sum h3, h2.sum, h3⟩
  have cy : ∀ y py, InInterval ⟨0, newH⟩ y → kernelPosition y rateY = some py →
      condition (fun x : Option ℚ => x.getD 0) ⟨0, h⟩ (weight float32 kernel rateY py) = 1 ∧
      weightSum (fun x : Option ℚ => x.getD 0) ⟨0, h⟩ (weight float32 kernel rateY py) ≠ 0 ∧
      ∀ i, InInterval ⟨0, h⟩ i → 0 ≤ (weight float32 kernel rateY py i).getD 0 := by
    intro y py hy hpy
    obtain ⟨p, h1, h2, h3⟩ := hky y hy
    obtain rfl : py = p := Option.some.inj (hpy.symm.trans h1)
    exact ⟨condition_eq_one h2.sum h3, h2.sum, h3⟩
  obtain ⟨pixels', e, hval, hrest⟩ := C85_rounding C84_float (C85_float 255 (by decide) (by decide)) w h newW newH hi ho h64 hfit1
    hfit2 kernel cacheIn cacheOut bi bo ax ay buf pixels m rateX rateY hrx hry 4 4
    (fun x hx => by obtain ⟨p, h1, h2, -⟩ := hkx x hx; exact ⟨p, h1, h2⟩)
    (fun y hy => by obtain ⟨p, h1, h2, -⟩ := hky y hy; exact ⟨p, h1, h2⟩) hsep hpix
    (by
      intro x y px py hx hy hpx hpy
      rw [(cx x px hx hpx).1, (cy y py hy hpy).1]
      have : ((floatQuantum 255).maxQuantum : ℚ) = 255 := rfl
      rw [this]
      exact c2.trans (by unfold largestFloat; norm_num)) debug
  refine ⟨pixels', e, fun x y c px py hc hpx hpy => ?_, hrest⟩
  have hx : InInterval ⟨0, newW⟩ x := ⟨hc.1.1, by show x < 0 + newW; have := hc.1.2; omega⟩
  have hy : InInterval ⟨0, newH⟩ y := ⟨hc.2.1.1, by show y < 0 + newH; have := hc.2.1.2; omega⟩
  obtain ⟨v, hv, hb⟩ := hval x y c px py hc hpx hpy
  obtain ⟨x1, x2, x3⟩ := cx x px hx hpx
  obtain ⟨y1, y2, y3⟩ := cy y py hy hpy
  refine ⟨v, hv, ?_⟩
  have ht : ((floatQuantum 255).maxQuantum : ℚ) = 255 := rfl
  rw [x1, y1, ht, mul_one, mul_one] at hb
  -- the mean is in the range
  have pos : ∀ {n : Int} {u : Int → Option ℚ}, weightSum (fun x : Option ℚ => x.getD 0) ⟨0, n⟩ u ≠ 0 →
      (∀ i, InInterval ⟨0, n⟩ i → 0 ≤ (u i).getD 0) → 0 < weightSum (fun x : Option ℚ => x.getD 0) ⟨0, n⟩ u :=
    fun h0 h1 => lt_of_le_of_ne (Finset.sum_nonneg fun i hi => h1 i (Finset.mem_Ico.1 hi)) h0.symm
  have sp := mul_pos (pos x2 x3) (pos y2 y3)
  have bounds : ∀ i ∈ spanOf ⟨0, w⟩, ∀ j ∈ spanOf ⟨0, h⟩, (0 : ℚ) ≤ pixels (componentAddress cacheIn w i j c) ∧
      (pixels (componentAddress cacheIn w i j c) : ℚ) ≤ 255 := by
    intro i hi j hj
    have hi := Finset.mem_Ico.1 hi
    have hj := Finset.mem_Ico.1 hj
    simp only at hi hj
    obtain ⟨b1, b2⟩ := hpix i j c ⟨by omega, by omega, hc.2.2⟩
    exact ⟨by exact_mod_cast b1, by exact_mod_cast b2⟩
  have l1 : 0 ≤ weightedMean (fun x => x.getD 0) w h (weight float32 kernel rateX px) (weight float32 kernel rateY py) fun i j =>
      (pixels (componentAddress cacheIn w i j c) : ℚ) :=
    div_nonneg (Finset.sum_nonneg fun i hi => Finset.sum_nonneg fun j hj =>
      mul_nonneg (mul_nonneg (x3 i (Finset.mem_Ico.1 hi)) (y3 j (Finset.mem_Ico.1 hj))) (bounds i hi j hj).1) sp.le
  have l2 : weightedMean (fun x => x.getD 0) w h (weight float32 kernel rateX px) (weight float32 kernel rateY py) (fun i j =>
      (pixels (componentAddress cacheIn w i j c) : ℚ)) ≤ 255 := by
    unfold weightedMean
    rw [div_le_iff₀ sp]
    unfold weightSum
    rw [Finset.sum_mul_sum, Finset.mul_sum]
    refine Finset.sum_le_sum fun i hi => ?_
    rw [Finset.mul_sum]
    refine Finset.sum_le_sum fun j hj => ?_
    rw [mul_comm (255 : ℚ)]
    exact mul_le_mul_of_nonneg_left (bounds i hi j hj).2 (mul_nonneg (x3 i (Finset.mem_Ico.1 hi)) (y3 j (Finset.mem_Ico.1 hj)))
  have el : ∀ z : ℚ, 0 ≤ z → z ≤ 255 → limited (floatQuantum 255).maxQuantum z = z := by
    intro z h1 h2
    show max 0 (min z ((255 : Int) : ℚ)) = z
    rw [min_eq_left (by exact_mod_cast h2), max_eq_right h1]
  rw [el _ l1 l2] at hb
  exact hb.trans (by linarith)

/-- A kernel whose non-zero values are consecutive. -/
theorem kernel_determined {F : Type} {o : FloatOps F} {v : Interval} {w : Int → F} {k : Dense1 F} (g : GoodKernel o v w k)
    (lo n : Int) (hn : 1 ≤ n) (h1 : InInterval v lo) (h2 : InInterval v (lo + n - 1))
    (hw : ∀ i ∈ ascending v, o.nonZero (w i) = decide (lo ≤ i ∧ i < lo + n)) (f : Int → F) :
    kernelSum o k f = (ascending ⟨lo, n⟩).foldl (fun s r => o.add s (o.mul (f r) (o.div (w r)
      ((ascending ⟨lo, n⟩).foldl (fun s i => o.add s (w i)) o.zero)))) o.zero := by
  obtain ⟨g1, g2, g3, g4, g5, s, ⟨l, hl1, hl2, rfl⟩, g6⟩ := g
  have hw' : ∀ i, InInterval v i → (o.nonZero (w i) = true ↔ lo ≤ i ∧ i < lo + n) := by
    intro i hi
    rw [hw i (mem_ascending.2 hi), decide_eq_true_iff]
  have inc : ∀ u : Interval, (ascending u).Pairwise (· < ·) := by
    intro u
    unfold ascending
    rw [List.pairwise_map]
    exact List.pairwise_lt_range.imp fun h => by omega
  have el : l = ascending ⟨lo, n⟩ := by
    refine List.Pairwise.eq_of_mem_iff hl1 (inc _) fun i => ?_
    rw [hl2, mem_ascending]
    constructor
    · rintro ⟨a, b⟩; exact (hw' i a).1 b
    · intro hi
      have hi : lo ≤ i ∧ i < lo + n := hi
      have hv : InInterval v i := by
        unfold InInterval at *
        omega
      exact ⟨hv, (hw' i hv).2 hi⟩
  have ed : k.dom = ⟨lo, n⟩ := by
    have a1 := (hw' _ (g1 _ g2)).1 g3
    have g2' : InInterval k.dom (k.dom.min + k.dom.extent - 1) := by
      unfold InInterval at *
      omega
    have a2 := (hw' _ (g1 _ g2')).1 g4
    have a3 := g5 lo h1 ((hw' _ h1).2 ⟨le_rfl, by omega⟩)
    have a4 := g5 _ h2 ((hw' _ h2).2 ⟨by omega, by omega⟩)
    cases hk : k.dom with
    | mk a b =>
      rw [hk] at a1 a2 a3 a4
      unfold InInterval at *
      simp only at *
      congr 1 <;> omega
  have ek : kernelSum o k f = (ascending k.dom).foldl (fun s r => o.add s (o.mul (f r) (k.data r))) o.zero := rfl
  have hd : ∀ r ∈ ascending k.dom, k.data r = o.div (w r) (l.foldl (fun s i => o.add s (w i)) o.zero) :=
    fun r hr => g6 r (mem_ascending.1 hr)
  rw [ek, ← el]
  rw [← ed] at el
  rw [← el] at hd ⊢
  generalize l.foldl (fun s i => o.add s (w i)) o.zero = t at hd
  clear el hl1 hl2 ek g6
  generalize o.zero = z
  induction l generalizing z with
  | nil => rfl
  | cons a l ih =>
    rw [List.foldl_cons, List.foldl_cons, hd a (by simp), ih fun i hi => hd i (by simp [hi])]

/-- The position of an output. -/
theorem position_determined {x : Int} {rate p : Rational} (hr : Canonical rate) (hv : 0 < value rate)
    (hx : 0 ≤ x ∧ x < 1000) (hn : rate.n.toInt < 1000) (hd : rate.d.toInt < 1000) (hp : Canonical p)
    (e : value p = ((x : ℚ) + 1 / 2) / value rate - 1 / 2) : kernelPosition x rate = some p := by
  obtain ⟨p', h1, h2, h3⟩ := C46_position x rate hr hv (by rw [abs_of_nonneg hx.1]; omega) (by omega) (by omega)
  rw [h1, C45_canonical_unique h2 hp (h3.trans e.symm)]

/-- `k` applied to the constant `v`, for the kernel with the `n` weights `w` from `lo` on. -/
def constantSum (w : Int → Option ℚ) (lo n : Int) (v : Option ℚ) : Option ℚ :=
  (ascending ⟨lo, n⟩).foldl (fun s r => float32.add s (float32.mul v (float32.div (w r)
    ((ascending ⟨lo, n⟩).foldl (fun s i => float32.add s (w i)) float32.zero)))) float32.zero

/-- The kernels of an example, from a table of positions and of intervals of non-zero weights. -/
theorem linear_table {n N : Int} {rate : Rational} {pos : Int → Rational} {lo : Int → Int} {len : Int} (hn : 1 ≤ n ∧ n < 1000)
    (hN : 1 ≤ N ∧ N < 1000) (hr : 0 < rate.d.toInt ∧ Int.gcd rate.n.toInt rate.d.toInt = 1) (hv : value rate = (N : ℚ) / n)
    (hlen : 1 ≤ len) (h : ∀ x ∈ ascending ⟨0, N⟩, (0 < (pos x).d.toInt ∧ Int.gcd (pos x).n.toInt (pos x).d.toInt = 1) ∧
      value (pos x) = ((x : ℚ) + 1 / 2) / value rate - 1 / 2 ∧ (0 ≤ lo x ∧ lo x + len ≤ n) ∧
      ∀ i ∈ ascending ⟨0, n⟩, float32.nonZero (weight float32 linearFloat rate (pos x) i) =
        decide (lo x ≤ i ∧ i < lo x + len)) :
    Rational.mk2 (BitVec.ofInt 64 N) (BitVec.ofInt 64 n) = some rate ∧
    (∀ x, InInterval ⟨0, N⟩ x → ∃ p, kernelPosition x rate = some p ∧
      ∃ i, InInterval ⟨0, n⟩ i ∧ float32.nonZero (weight float32 linearFloat rate p i) = true) ∧
    ∀ (ks : Dense1 (Dense1 (Option ℚ))), (∀ x p, InInterval ⟨0, N⟩ x → kernelPosition x rate = some p →
      GoodKernel float32 ⟨0, n⟩ (weight float32 linearFloat rate p) (ks.data x)) →
      ∀ x, InInterval ⟨0, N⟩ x → ∀ (f : Int → Option ℚ) v, (∀ i, f i = v) →
        kernelSum float32 (ks.data x) f = constantSum (weight float32 linearFloat rate (pos x)) (lo x) len v := by
  obtain ⟨r, e, hc, hvr, h0, b1, b2⟩ := rate_make (n := N) (d := n) hN.1 (by omega) hn.1 (by omega)
  obtain rfl : r = rate := C45_canonical_unique hc hr (hvr.trans hv.symm)
  have hpos : ∀ x, InInterval ⟨0, N⟩ x → kernelPosition x r = some (pos x) := by
    intro x hx
    obtain ⟨h1, h2, -⟩ := h x (mem_ascending.2 hx)
    have hx0 : 0 ≤ x := hx.1
    have hx1 : x < 0 + N := hx.2
    exact position_determined hc h0 ⟨hx0, by omega⟩ (by omega) (by omega) h1 h2
  have inside : ∀ x, InInterval ⟨0, N⟩ x → InInterval ⟨0, n⟩ (lo x) ∧ InInterval ⟨0, n⟩ (lo x + len - 1) := by
    intro x hx
    obtain ⟨-, -, h3, -⟩ := h x (mem_ascending.2 hx)
    unfold InInterval
    simp only
    omega
  refine ⟨e, fun x hx => ⟨_, hpos x hx, lo x, (inside x hx).1, ?_⟩, ?_⟩
  · obtain ⟨-, -, -, h4⟩ := h x (mem_ascending.2 hx)
    rw [h4 _ (mem_ascending.2 (inside x hx).1)]
    exact decide_eq_true ⟨le_rfl, by omega⟩
  · intro ks hg x hx f v hf
    obtain ⟨-, -, -, h4⟩ := h x (mem_ascending.2 hx)
    rw [kernel_determined (hg x _ hx (hpos x hx)) (lo x) len hlen (inside x hx).1 (inside x hx).2 h4 f]
    unfold constantSum
    simp only [hf]

/-- Enlarging one row to 64. -/
theorem column_table : Rational.mk2 (BitVec.ofInt 64 64) (BitVec.ofInt 64 1) = some ⟨64#64, 1#64⟩ ∧
    (∀ x, InInterval ⟨0, 64⟩ x → ∃ p, kernelPosition x ⟨64#64, 1#64⟩ = some p ∧
      ∃ i, InInterval ⟨0, 1⟩ i ∧ float32.nonZero (weight float32 linearFloat ⟨64#64, 1#64⟩ p i) = true) ∧
    ∀ (ks : Dense1 (Dense1 (Option ℚ))), (∀ x p, InInterval ⟨0, 64⟩ x → kernelPosition x ⟨64#64, 1#64⟩ = some p →
      GoodKernel float32 ⟨0, 1⟩ (weight float32 linearFloat ⟨64#64, 1#64⟩ p) (ks.data x)) →
      ∀ x, InInterval ⟨0, 64⟩ x → ∀ (f : Int → Option ℚ) v, (∀ i, f i = v) →
        kernelSum float32 (ks.data x) f = constantSum (weight float32 linearFloat ⟨64#64, 1#64⟩
          ⟨BitVec.ofInt 64 (2 * x - 63), 128#64⟩) 0 1 v := linear_table (n := 1) (N := 64) (rate := ⟨64#64, 1#64⟩)
  (pos := fun y => ⟨BitVec.ofInt 64 (2 * y - 63), 128#64⟩) (lo := fun _ => 0) (len := 1) (by decide) (by decide) (by decide)
  (by decide +kernel) (by decide) (by decide +kernel)

/-- C85, negative part: in binary32 a constant image does not always become a constant image, because the conversion to
integers truncates. With the linear kernel, an image of five pixels of value 1, resized to a width of 4, becomes rows with the
values 0, 1, 1, 0. -/
theorem C85_constant_counterexample (cacheIn cacheOut : Int) (m : Mem (Option ℚ)) (debug : Bool) :
    ∃ pixels', resizeImage float32 (floatQuantum 255) debug 5 1 4 64 linearFloat cacheIn cacheOut 0 20 (fun x => 1044 + x * 5)
        (fun y => 1064 + y * 1) (fun _ n => 1128 + n * (256 * (5 + 4))) (fun _ => 1) m = some pixels' ∧
      ∀ y c, 0 ≤ y ∧ y < 64 → 0 ≤ c ∧ c < 4 →
        pixels' (componentAddress cacheOut 4 0 y c) = 0 ∧ pixels' (componentAddress cacheOut 4 1 y c) = 1 ∧
        pixels' (componentAddress cacheOut 4 2 y c) = 1 ∧ pixels' (componentAddress cacheOut 4 3 y c) = 0 := by
  obtain ⟨ey, cy, sy⟩ := column_table
  obtain ⟨ex, cx, sx⟩ := linear_table (n := 5) (N := 4) (rate := ⟨4#64, 5#64⟩)
    (pos := fun x => ⟨BitVec.ofInt 64 (10 * x + 1), 8#64⟩) (lo := fun x => x) (len := 2) (by decide) (by decide) (by decide)
    (by decide +kernel) (by decide) (by decide +kernel)
  have hi : ImageSize 5 1 4 := ⟨by decide, by decide, by decide, by decide⟩
  have ho : ImageSize 4 64 4 := ⟨by decide, by decide, by decide, by decide⟩
  obtain ⟨kx, ky, gx, gy, hrun, -⟩ := C85_program (q := floatQuantum 255) 5 1 4 64 hi ho (by decide) (by decide) (by decide)
    linearFloat cacheIn cacheOut 0 20 (fun x => 1044 + x * 5) (fun y => 1064 + y * 1) (fun _ n => 1128 + n * (256 * (5 + 4)))
    (fun _ => 1) m _ _ ex ey cx cy
    (C85_placement 5 1 4 64 hi ho linearFloat _ _ 20 1044 1064 1128 (by decide) (by decide) (by decide) (by decide) cx cy) debug
  have tx : ∀ x ∈ ascending ⟨0, 4⟩, (floatQuantum 255).toQuantum (clampQuantum float32 (floatQuantum 255)
      (constantSum (weight float32 linearFloat ⟨4#64, 5#64⟩ ⟨BitVec.ofInt 64 (10 * x + 1), 8#64⟩) x 2 (some 1))) =
      some (if x = 0 ∨ x = 3 then 0 else 1) := by decide +kernel
  have ty : ∀ y ∈ ascending ⟨0, 64⟩, constantSum (weight float32 linearFloat ⟨64#64, 1#64⟩
      ⟨BitVec.ofInt 64 (2 * y - 63), 128#64⟩) 0 1 ((floatQuantum 255).ofQuantum 1) = some 1 := by decide +kernel
  have pixel : ∀ x y c, IsComponent 4 64 x y c → (floatQuantum 255).toQuantum (clampQuantum float32 (floatQuantum 255)
      (kernelSum float32 (kx.data x) fun i => kernelSum float32 (ky.data y) fun j =>
        (floatQuantum 255).ofQuantum ((fun _ => 1 : Mem Int) (componentAddress cacheIn 5 i j c)))) =
      some (if x = 0 ∨ x = 3 then 0 else 1) := by
    intro x y c hc
    obtain ⟨hx, hy, -⟩ := hc
    have hx' : InInterval ⟨0, 4⟩ x := ⟨hx.1, by show x < 0 + 4; omega⟩
    have hy' : InInterval ⟨0, 64⟩ y := ⟨hy.1, by show y < 0 + 64; omega⟩
    rw [sx kx gx x hx' _ (some 1) fun i => (sy ky gy y hy' _ _ fun j => rfl).trans (ty y (mem_ascending.2 hy'))]
    exact tx x (mem_ascending.2 hx')
  obtain ⟨pixels', e, hval, -⟩ := hrun fun x y c hc => ⟨_, pixel x y c hc⟩
  have val : ∀ x y c, IsComponent 4 64 x y c → pixels' (componentAddress cacheOut 4 x y c) = if x = 0 ∨ x = 3 then 0 else 1 :=
    fun x y c hc => (Option.some.inj ((pixel x y c hc).symm.trans (hval x y c hc))).symm
  refine ⟨pixels', e, fun y c hy hc => ⟨?_, ?_, ?_, ?_⟩⟩
  · exact val 0 y c ⟨by omega, hy, hc⟩
  · exact val 1 y c ⟨by omega, hy, hc⟩
  · exact val 2 y c ⟨by omega, hy, hc⟩
  · exact val 3 y c ⟨by omega, hy, hc⟩

/-- C85, negative part: components of 32 bits. The largest one becomes the next larger `float`, and the conversion of this
`float` back to an integer is undefined: the program does not even work for a white image of one pixel. -/
theorem C85_quantum32_counterexample (cacheIn cacheOut : Int) (m : Mem (Option ℚ)) (debug : Bool) :
    resizeImage float32 (floatQuantum (2 ^ 32 - 1)) debug 1 1 1 64 linearFloat cacheIn cacheOut 0 4 (fun x => 260 + x * 1)
      (fun y => 261 + y * 1) (fun _ n => 325 + n * (256 * (1 + 1))) (fun _ => 2 ^ 32 - 1) m = none := by
  obtain ⟨ey, cy, sy⟩ := column_table
  obtain ⟨ex, cx, sx⟩ := linear_table (n := 1) (N := 1) (rate := ⟨1#64, 1#64⟩)
    (pos := fun x => ⟨0#64, 1#64⟩) (lo := fun x => 0) (len := 1) (by decide) (by decide) (by decide)
    (by decide +kernel) (by decide) (by decide +kernel)
  have hi : ImageSize 1 1 4 := ⟨by decide, by decide, by decide, by decide⟩
  have ho : ImageSize 1 64 4 := ⟨by decide, by decide, by decide, by decide⟩
  obtain ⟨kx, ky, gx, gy, -, hrun⟩ := C85_program (q := floatQuantum (2 ^ 32 - 1)) 1 1 1 64 hi ho (by decide) (by decide)
    (by decide) linearFloat cacheIn cacheOut 0 4 (fun x => 260 + x * 1) (fun y => 261 + y * 1)
    (fun _ n => 325 + n * (256 * (1 + 1))) (fun _ => 2 ^ 32 - 1) m _ _ ex ey cx cy
    (C85_placement 1 1 1 64 hi ho linearFloat _ _ 4 260 261 325 (by decide) (by decide) (by decide) (by decide) cx cy) debug
  refine hrun ⟨0, 0, 0, ⟨by decide, by decide, by decide⟩, ?_⟩
  have hx : InInterval ⟨0, 1⟩ 0 := ⟨by decide, by decide⟩
  have hy : InInterval ⟨0, 64⟩ 0 := ⟨by decide, by decide⟩
  rw [sx kx gx 0 hx _ _ fun i => sy ky gy 0 hy _ _ fun j => rfl]
  decide +kernel

/-- In exact arithmetic the image of the first counterexample remains constant, and one with a step becomes a smoother one. -/
example : (∀ x ∈ ascending ⟨0, 4⟩, ⌊limited 255 (resizedValue linear 5 1 4 64 (fun _ _ => 1) x 0)⌋ = 1) ∧
    (ascending ⟨0, 4⟩).map (fun x => ⌊limited 255 (resizedValue linear 5 1 4 64 (fun i _ => if i < 2 then 0 else 200) x 0)⌋) =
      [0, 83, 200, 200] := by
  decide +kernel

/-- A full-HD image reduced to a quarter. -/
example (pixels : Mem Int) (hp : ∀ p, 0 ≤ pixels p ∧ pixels p ≤ 65535) (m : Mem ℚ) : ∃ ax ay buf pixels',
    resizeImage (fieldOps ℚ) (exactQuantum 65535) true 1920 1080 480 270 interpolatingCubic 0 100000000 0 8294400 ax ay buf
      pixels m = some pixels' ∧ ∀ x y c, IsComponent 480 270 x y c →
      pixels' (componentAddress 100000000 480 x y c) = ⌊limited 65535 (resizedValue interpolatingCubic 1920 1080 480 270
        (fun i j => pixels (componentAddress 0 1920 i j c)) x y)⌋ := by
  obtain ⟨ax, ay, buf, pixels', e, h, -⟩ := C85_placed 65535 (by decide) (k := interpolatingCubic)
    (Or.inr (Or.inr (Or.inr (Or.inl rfl)))) 1920 1080 480 270 (by decide) (by decide) (by decide) (by decide)
    0 100000000 pixels m (fun x y c _ => hp _) true
  exact ⟨ax, ay, buf, pixels', e, h⟩

/-- An image of 8 x 8 pixels resized to 4 x 64 in binary32, with the linear kernel. -/
example (pixels : Mem Int) (hp : ∀ p, 0 ≤ pixels p ∧ pixels p ≤ 255) (m : Mem (Option ℚ)) : ∃ ax ay buf pixels',
    resizeImage float32 (floatQuantum 255) true 8 8 4 64 linearFloat 0 1000 0 256 ax ay buf pixels m = some pixels' ∧
      ∀ x y c px py, IsComponent 4 64 x y c → kernelPosition x ⟨1#64, 2#64⟩ = some px →
        kernelPosition y ⟨8#64, 1#64⟩ = some py → ∃ v : ℚ, pixels' (componentAddress 1000 4 x y c) = ⌊v⌋ ∧
        |v - weightedMean (fun x => x.getD 0) 8 8 (weight float32 linearFloat ⟨1#64, 2#64⟩ px)
          (weight float32 linearFloat ⟨8#64, 1#64⟩ py) fun i j => pixels (componentAddress 0 8 i j c)| ≤ 31 / 100000 := by
  have hx := linearFloat_example 4 ⟨1#64, 2#64⟩ ⟨by decide, by decide⟩ (by decide +kernel) (by decide) (by decide)
    (by decide) (fun x => ⟨BitVec.ofInt 64 (4 * x + 1), 2#64⟩) (by decide +kernel)
  have hy := linearFloat_example 64 ⟨8#64, 1#64⟩ ⟨by decide, by decide⟩ (by decide +kernel) (by decide) (by decide)
    (by decide) (fun x => ⟨BitVec.ofInt 64 (2 * x - 7), 16#64⟩) (by decide +kernel)
  have cover : ∀ {N : Int} {rate : Rational}, (∀ x, InInterval ⟨0, N⟩ x → ∃ p, kernelPosition x rate = some p ∧
      GoodWeights IsFloat (fun x => x.getD 0) ((2 : ℚ)⁻¹ ^ 24) largestFloat 4 ⟨0, 8⟩ (weight float32 linearFloat rate p) ∧
      ∀ i, InInterval ⟨0, 8⟩ i → 0 ≤ (weight float32 linearFloat rate p i).getD 0) →
      ∀ x, InInterval ⟨0, N⟩ x → ∃ p, kernelPosition x rate = some p ∧
        ∃ i, InInterval ⟨0, 8⟩ i ∧ float32.nonZero (weight float32 linearFloat rate p i) = true := by
    intro N rate h x hx
    obtain ⟨p, hp, G, -⟩ := h x hx
    obtain ⟨i, hi, hw⟩ := Finset.exists_ne_zero_of_sum_ne_zero G.sum
    have hi' : InInterval ⟨0, 8⟩ i := Finset.mem_Ico.1 hi
    exact ⟨p, hp, i, hi', (C84_float.nonZero _ (G.finite i hi')).2 hw⟩
  have rate : ∀ {n d : Int} {r : Rational}, 1 ≤ n ∧ n < 1000 → 1 ≤ d ∧ d < 1000 → Canonical r → value r = (n : ℚ) / d →
      Rational.mk2 (BitVec.ofInt 64 n) (BitVec.ofInt 64 d) = some r := by
    intro n d r hn hd hc hv
    obtain ⟨r', e, hc', hv', -⟩ := rate_make (n := n) (d := d) hn.1 (by omega) hd.1 (by omega)
    rw [e, C45_canonical_unique hc' hc (hv'.trans hv.symm)]
  have hi : ImageSize 8 8 4 := ⟨by decide, by decide, by decide, by decide⟩
  have ho : ImageSize 4 64 4 := ⟨by decide, by decide, by decide, by decide⟩
  obtain ⟨pixels', e, h, -⟩ := C85_8bit 8 8 4 64 hi ho (by decide) (by decide) (by decide) linearFloat 0 1000 0 256
    (fun x => 1280 + x * 8) (fun y => 1312 + y * 8) (fun _ n => 1824 + n * (256 * (8 + 4))) pixels m ⟨1#64, 2#64⟩ ⟨8#64, 1#64⟩
    (rate (by decide) (by decide) ⟨by decide, by decide⟩ (by decide +kernel))
    (rate (by decide) (by decide) ⟨by decide, by decide⟩ (by decide +kernel)) hx hy
    (C85_placement 8 8 4 64 hi ho linearFloat _ _ 256 1280 1312 1824 (by decide) (by decide) (by decide) (by decide) (cover hx)
      (cover hy)) (fun x y c _ => hp _) true
  exact ⟨_, _, _, pixels', e, h⟩

end Nda
