import Verif.Spec.ResampleSymmetry
import Verif.Lemmas.ResampleSymmetry
import Verif.Props.ResampleBenchmark
/-
C101: what resizing does to images that are related to each other: mirrored, transposed, brighter, or equal nearby.
-/
namespace Nda
open Spec Kernel

/-- The program that resizes images (C85) in exact arithmetic, with all objects one after the other. -/
def resizeExact (top : Int) (debug : Bool) (w h newW newH : Int) (k : ℚ → ℚ) (cacheIn cacheOut : Int) (pixels : Mem Int) (m : Mem ℚ) :
    Option (Mem Int) :=
  resizeImage (fieldOps ℚ) (exactQuantum top) debug w h newW newH k cacheIn cacheOut 0 (4 * (w * h))
    ((placedCalls w h newW newH).ax 0) ((placedCalls w h newW newH).ay 0) ((placedCalls w h newW newH).buf 0) pixels m

/-- Sizes that the program can process. -/
structure Sizes (w h newW newH : Int) : Prop where
  width : 1 ≤ w ∧ w < 2 ^ 29
  height : 1 ≤ h ∧ h < 2 ^ 29
  newWidth : 1 ≤ newW ∧ newW < 2 ^ 29
  newHeight : 64 ≤ newH ∧ newH < 2 ^ 29

/-- C85 with these addresses. -/
theorem resizeExact_run {top : Int} {k : ℚ → ℚ} (hk : PolynomialKernel k) {w h newW newH : Int} (hs : Sizes w h newW newH)
    (cacheIn cacheOut : Int) (pixels : Mem Int) (m : Mem ℚ) (hpix : ComponentsIn 0 top cacheIn w h pixels) (debug : Bool) :
    ∃ pixels', resizeExact top debug w h newW newH k cacheIn cacheOut pixels m = some pixels' ∧
      ∀ x y c, IsComponent newW newH x y c → pixels' (componentAddress cacheOut newW x y c) =
        ⌊limited top (resizedValue k w h newW newH (fun i j => pixels (componentAddress cacheIn w i j c)) x y)⌋ := by
  have hH' : 1 ≤ newH ∧ newH < 2 ^ 29 := ⟨by have := hs.newHeight.1; omega, hs.newHeight.2⟩
  have htop : 0 ≤ top := by
    obtain ⟨a, b⟩ := hpix 0 0 0 ⟨⟨le_rfl, by have := hs.width.1; omega⟩, ⟨le_rfl, by have := hs.height.1; omega⟩, by omega, by omega⟩
    omega
  obtain ⟨pixels', e, h, -⟩ := C85_exact top htop hk w h newW newH hs.width hs.height hs.newWidth hs.newHeight cacheIn cacheOut 0
    (4 * (w * h)) ((placedCalls w h newW newH).ax 0) ((placedCalls w h newW newH).ay 0) ((placedCalls w h newW newH).buf 0) pixels m
    hpix (by
    intro rateX rateY kx ky ex ey e1 e2
    obtain ⟨rX, ex', -, hkx⟩ := exact_kernels hk hs.width hs.newWidth
    obtain ⟨rY, ey', -, hky⟩ := exact_kernels hk hs.height hH'
    obtain rfl : rX = rateX := Option.some.inj (ex'.symm.trans ex)
    obtain rfl : rY = rateY := Option.some.inj (ey'.symm.trans ey)
    exact C85_placement w h newW newH (image_size hs.width hs.height) (image_size hs.newWidth hH') k _ _ _ _ _ _ rfl rfl rfl rfl
      (fun x hx => by
        obtain ⟨p, hp, h1, h2⟩ := hkx x hx
        exact ⟨p, hp, exact_cover h1 h2⟩)
      (fun y hy => by
        obtain ⟨p, hp, h1, h2⟩ := hky y hy
        exact ⟨p, hp, exact_cover h1 h2⟩) kx ky e1 e2) debug
  exact ⟨pixels', e, h⟩

section
variable {top : Int} {k : ℚ → ℚ} (hk : PolynomialKernel k) {w h newW newH : Int} (cacheIn cacheOut : Int) (p1 p2 : Mem Int)
  (m1 m2 : Mem ℚ) (debug : Bool)
include hk

/-- C101: an image with its columns in reverse order becomes the resized image with its columns in reverse order. -/
theorem C101_mirror_columns (hs : Sizes w h newW newH) (hp : ComponentsIn 0 top cacheIn w h p1) (hm : MirroredColumns cacheIn w h p1 p2) :
    ∃ r1 r2, resizeExact top debug w h newW newH k cacheIn cacheOut p1 m1 = some r1 ∧
      resizeExact top debug w h newW newH k cacheIn cacheOut p2 m2 = some r2 ∧ MirroredColumns cacheOut newW newH r1 r2 := by
  have back : ∀ x y c, IsComponent w h x y c →
      p2 (componentAddress cacheIn w x y c) = p1 (componentAddress cacheIn w (w - 1 - x) y c) := by
    intro x y c hc
    have := hm (w - 1 - x) y c ⟨by have := hc.1; omega, hc.2⟩
    rwa [sub_sub_cancel] at this
  have hp2 : ComponentsIn 0 top cacheIn w h p2 := fun x y c hc => by
    rw [back x y c hc]
    exact hp _ _ _ ⟨by have := hc.1; omega, hc.2⟩
  obtain ⟨r1, e1, v1⟩ := resizeExact_run hk hs cacheIn cacheOut p1 m1 hp debug
  obtain ⟨r2, e2, v2⟩ := resizeExact_run hk hs cacheIn cacheOut p2 m2 hp2 debug
  refine ⟨r1, r2, e1, e2, fun x y c hc => ?_⟩
  rw [v2 _ _ _ ⟨by have := hc.1; omega, hc.2⟩, v1 _ _ _ hc]
  refine congrArg (fun v => ⌊limited top v⌋) ((resized_congr fun i j hi hj _ _ => ?_).trans
    (resized_mirror_columns (polynomial_symmetric hk) hs.newWidth.1 _ x y))
  exact_mod_cast back i j c ⟨hi, hj, hc.2.2⟩

/-- C101: the same for rows. -/
theorem C101_mirror_rows (hs : Sizes w h newW newH) (hp : ComponentsIn 0 top cacheIn w h p1) (hm : MirroredRows cacheIn w h p1 p2) :
    ∃ r1 r2, resizeExact top debug w h newW newH k cacheIn cacheOut p1 m1 = some r1 ∧
      resizeExact top debug w h newW newH k cacheIn cacheOut p2 m2 = some r2 ∧ MirroredRows cacheOut newW newH r1 r2 := by
  have back : ∀ x y c, IsComponent w h x y c →
      p2 (componentAddress cacheIn w x y c) = p1 (componentAddress cacheIn w x (h - 1 - y) c) := by
    intro x y c hc
    have := hm x (h - 1 - y) c ⟨hc.1, by have := hc.2.1; omega, hc.2.2⟩
    rwa [sub_sub_cancel] at this
  have hp2 : ComponentsIn 0 top cacheIn w h p2 := fun x y c hc => by
    rw [back x y c hc]
    exact hp _ _ _ ⟨hc.1, by have := hc.2.1; omega, hc.2.2⟩
  obtain ⟨r1, e1, v1⟩ := resizeExact_run hk hs cacheIn cacheOut p1 m1 hp debug
  obtain ⟨r2, e2, v2⟩ := resizeExact_run hk hs cacheIn cacheOut p2 m2 hp2 debug
  refine ⟨r1, r2, e1, e2, fun x y c hc => ?_⟩
  rw [v2 _ _ _ ⟨hc.1, by have := hc.2.1; omega, hc.2.2⟩, v1 _ _ _ hc]
  refine congrArg (fun v => ⌊limited top v⌋) ((resized_congr fun i j hi hj _ _ => ?_).trans
    (resized_mirror_rows (polynomial_symmetric hk) (by have := hs.newHeight.1; omega) _ x y))
  exact_mod_cast back i j c ⟨hi, hj, hc.2.2⟩

/-- C101: an image with rows and columns exchanged becomes the resized image with rows and columns exchanged. -/
theorem C101_transpose (hs : Sizes w h newW newH) (h64 : 64 ≤ newW) (hp : ComponentsIn 0 top cacheIn w h p1)
    (hm : Transposed cacheIn w h p1 p2) :
    ∃ r1 r2, resizeExact top debug w h newW newH k cacheIn cacheOut p1 m1 = some r1 ∧
      resizeExact top debug h w newH newW k cacheIn cacheOut p2 m2 = some r2 ∧ Transposed cacheOut newW newH r1 r2 := by
  have hp2 : ComponentsIn 0 top cacheIn h w p2 := fun x y c hc => by
    rw [hm y x c ⟨hc.2.1, hc.1, hc.2.2⟩]
    exact hp _ _ _ ⟨hc.2.1, hc.1, hc.2.2⟩
  have hs2 : Sizes h w newH newW := ⟨hs.height, hs.width, ⟨by have := hs.newHeight.1; omega, hs.newHeight.2⟩, h64, hs.newWidth.2⟩
  obtain ⟨r1, e1, v1⟩ := resizeExact_run hk hs cacheIn cacheOut p1 m1 hp debug
  obtain ⟨r2, e2, v2⟩ := resizeExact_run hk hs2 cacheIn cacheOut p2 m2 hp2 debug
  refine ⟨r1, r2, e1, e2, fun x y c hc => ?_⟩
  rw [v2 _ _ _ ⟨hc.2.1, hc.1, hc.2.2⟩, v1 _ _ _ hc]
  refine congrArg (fun v => ⌊limited top v⌋) ((resized_congr fun i j hi hj _ _ => ?_).trans (resized_transpose k w h newW newH _ x y))
  exact_mod_cast hm j i c ⟨hj, hi, hc.2.2⟩

/-- C101: with a kernel that is nowhere negative, a brighter image becomes a brighter image. -/
theorem C101_monotone (hnn : ∀ s, 0 ≤ k s) (hs : Sizes w h newW newH) (hp1 : ComponentsIn 0 top cacheIn w h p1)
    (hp2 : ComponentsIn 0 top cacheIn w h p2) (hm : ComponentsLe cacheIn w h p1 p2) :
    ∃ r1 r2, resizeExact top debug w h newW newH k cacheIn cacheOut p1 m1 = some r1 ∧
      resizeExact top debug w h newW newH k cacheIn cacheOut p2 m2 = some r2 ∧ ComponentsLe cacheOut newW newH r1 r2 := by
  obtain ⟨r1, e1, v1⟩ := resizeExact_run hk hs cacheIn cacheOut p1 m1 hp1 debug
  obtain ⟨r2, e2, v2⟩ := resizeExact_run hk hs cacheIn cacheOut p2 m2 hp2 debug
  refine ⟨r1, r2, e1, e2, fun x y c hc => ?_⟩
  rw [v1 _ _ _ hc, v2 _ _ _ hc]
  refine Int.floor_mono (limited_mono top (resized_mono hnn fun i j hi hj => ?_))
  exact_mod_cast hm i j c ⟨hi, hj, hc.2.2⟩

/-- C101: with such a kernel no component is below the least or above the greatest one of the image. -/
theorem C101_range (hnn : ∀ s, 0 ≤ k s) (hs : Sizes w h newW newH) (lo hi : Int) (hlo : 0 ≤ lo) (hhi : hi ≤ top)
    (hp : ComponentsIn lo hi cacheIn w h p1) :
    ∃ r1, resizeExact top debug w h newW newH k cacheIn cacheOut p1 m1 = some r1 ∧ ComponentsIn lo hi cacheOut newW newH r1 := by
  have hH' : 1 ≤ newH ∧ newH < 2 ^ 29 := ⟨by have := hs.newHeight.1; omega, hs.newHeight.2⟩
  have hlohi : lo ≤ hi := by
    obtain ⟨a, b⟩ := hp 0 0 0 ⟨⟨le_rfl, by have := hs.width.1; omega⟩, ⟨le_rfl, by have := hs.height.1; omega⟩, by omega, by omega⟩
    omega
  obtain ⟨r1, e1, v1⟩ := resizeExact_run hk hs cacheIn cacheOut p1 m1 (fun x y c hc => ⟨hlo.trans (hp x y c hc).1,
    (hp x y c hc).2.trans hhi⟩) debug
  refine ⟨r1, e1, fun x y c hc => ?_⟩
  rw [v1 _ _ _ hc]
  have const : ∀ v, lo ≤ v → v ≤ hi → ⌊limited top (resizedValue k w h newW newH (fun _ _ => (v : ℚ)) x y)⌋ = v := fun v a b =>
    C85_constant hk w h newW newH hs.width hs.height hs.newWidth hH' top v ⟨by omega, by omega⟩ _ (fun _ _ _ _ => rfl) x y hc.1 hc.2.1
  constructor
  · rw [← const lo le_rfl hlohi]
    refine Int.floor_mono (limited_mono top (resized_mono hnn fun i j hi hj => ?_))
    exact_mod_cast (hp i j c ⟨hi, hj, hc.2.2⟩).1
  · rw [← const hi hlohi le_rfl]
    refine Int.floor_mono (limited_mono top (resized_mono hnn fun i j hi hj => ?_))
    exact_mod_cast (hp i j c ⟨hi, hj, hc.2.2⟩).2

/-- C101: a component depends only on the same components of the pixels whose distance to its position is at most the radius of
the kernel, in each direction and in pixels of the image with fewer of them. -/
theorem C101_local {R : ℚ} (hR : ∀ s, R < |s| → k s = 0) (hs : Sizes w h newW newH) (hp1 : ComponentsIn 0 top cacheIn w h p1)
    (hp2 : ComponentsIn 0 top cacheIn w h p2) :
    ∃ r1 r2, resizeExact top debug w h newW newH k cacheIn cacheOut p1 m1 = some r1 ∧
      resizeExact top debug w h newW newH k cacheIn cacheOut p2 m2 = some r2 ∧
      ∀ x y c, IsComponent newW newH x y c →
        SameNear cacheIn w h (samplePosition w newW x) (R * max ((w : ℚ) / newW) 1) (samplePosition h newH y)
          (R * max ((h : ℚ) / newH) 1) c p1 p2 →
        r1 (componentAddress cacheOut newW x y c) = r2 (componentAddress cacheOut newW x y c) := by
  obtain ⟨r1, e1, v1⟩ := resizeExact_run hk hs cacheIn cacheOut p1 m1 hp1 debug
  obtain ⟨r2, e2, v2⟩ := resizeExact_run hk hs cacheIn cacheOut p2 m2 hp2 debug
  refine ⟨r1, r2, e1, e2, fun x y c hc hsame => ?_⟩
  rw [v1 _ _ _ hc, v2 _ _ _ hc]
  have near : ∀ {n newN x i : Int}, 1 ≤ n → 1 ≤ newN → sampleWeight k n newN x i ≠ 0 →
      |(i : ℚ) - samplePosition n newN x| ≤ R * max ((n : ℚ) / newN) 1 := by
    intro n newN x i hn hN hw
    have hnq : (0 : ℚ) < n := by exact_mod_cast (by omega : 0 < n)
    have hNq : (0 : ℚ) < newN := by exact_mod_cast (by omega : 0 < newN)
    by_contra hlt
    refine hw (hR _ ?_)
    set t := min ((newN : ℚ) / n) 1 with ht
    have t0 : 0 < t := lt_min (by positivity) (by norm_num)
    have tm : t * max ((n : ℚ) / newN) 1 = 1 := by
      rw [ht]
      rcases le_total n newN with hle | hle
      · have hle : (n : ℚ) ≤ newN := by exact_mod_cast hle
        rw [min_eq_right ((one_le_div hnq).2 hle), max_eq_right ((div_le_one hNq).2 hle), one_mul]
      · have hle : (newN : ℚ) ≤ n := by exact_mod_cast hle
        rw [min_eq_left ((div_le_one hnq).2 hle), max_eq_left ((one_le_div hNq).2 hle)]
        field_simp
    rw [abs_mul, abs_of_pos t0]
    calc R = R * max ((n : ℚ) / newN) 1 * t := by rw [mul_assoc, mul_comm _ t, tm, mul_one]
      _ < _ := mul_lt_mul_of_pos_right (not_le.1 hlt) t0
  rw [resized_congr fun i j hi hj hx hy => ?_]
  have := hsame i j ⟨hi, hj, hc.2.2⟩ (near hs.width.1 hs.newWidth.1 hx) (near hs.height.1 (by have := hs.newHeight.1; omega) hy)
  exact_mod_cast this

/-- C101: a gradient stays that gradient, in an image that is not made smaller, at positions further from the edges than the
radius of a kernel that reconstructs linear functions. -/
theorem C101_gradient {R : ℚ} (hR : ∀ a b : ℚ, Reconstructs k R fun x => a + b * x) (hs : Sizes w h newW newH)
    (hW : w ≤ newW) (hH : h ≤ newH) (hp : ComponentsIn 0 top cacheIn w h p1) (a b c : Int → Int)
    (hg : ∀ i j d, IsComponent w h i j d → p1 (componentAddress cacheIn w i j d) = a d + b d * i + c d * j) :
    ∃ r1, resizeExact top debug w h newW newH k cacheIn cacheOut p1 m1 = some r1 ∧
      ∀ x y d, IsComponent newW newH x y d → R - 1 ≤ samplePosition w newW x → samplePosition w newW x ≤ w - R →
        R - 1 ≤ samplePosition h newH y → samplePosition h newH y ≤ h - R →
        r1 (componentAddress cacheOut newW x y d) =
          ⌊limited top (a d + b d * samplePosition w newW x + c d * samplePosition h newH y)⌋ := by
  obtain ⟨r1, e1, v1⟩ := resizeExact_run hk hs cacheIn cacheOut p1 m1 hp debug
  refine ⟨r1, e1, fun x y d hd x0 x1 y0 y1 => ?_⟩
  rw [v1 _ _ _ hd, resized_gradient (polynomial_symmetric hk) hR hs.width.1 hW hs.height.1 hH x0 x1 y0 y1 (a d) (b d) (c d)]
  intro i j hi hj
  rw [hg i j d ⟨hi, hj, hd.2.2⟩]
  push_cast
  rfl

end

/-- C101: the kernels to which this applies. `box`, `linear` and the B-splines are nowhere negative; each kernel is zero beyond
its radius; all except `box` reconstruct linear functions. -/
theorem C101_kernels :
    (∀ k ∈ [(box : ℚ → ℚ), linear, quadraticBspline, cubicBspline], PolynomialKernel k ∧ ∀ s, 0 ≤ k s) ∧
    (∀ e ∈ [((box : ℚ → ℚ), (1 / 2 : ℚ)), (linear, 1), (interpolatingQuadratic, 3 / 2), (interpolatingCubic, 2), (quadraticBspline, 3 / 2),
      (cubicBspline, 2)], PolynomialKernel e.1 ∧ ∀ s, e.2 < |s| → e.1 s = 0) ∧
    (∀ e ∈ [((linear : ℚ → ℚ), (1 : ℚ)), (interpolatingQuadratic, 3 / 2), (quadraticBspline, 3 / 2), (interpolatingCubic, 2),
      (cubicBspline, 2)], PolynomialKernel e.1 ∧ ∀ a b : ℚ, Reconstructs e.1 e.2 fun x => a + b * x) := by
  have p1 : PolynomialKernel (box : ℚ → ℚ) := .inl rfl
  have p2 : PolynomialKernel (linear : ℚ → ℚ) := .inr (.inl rfl)
  have p3 : PolynomialKernel (interpolatingQuadratic : ℚ → ℚ) := .inr (.inr (.inl rfl))
  have p4 : PolynomialKernel (interpolatingCubic : ℚ → ℚ) := .inr (.inr (.inr (.inl rfl)))
  have p5 : PolynomialKernel (quadraticBspline : ℚ → ℚ) := .inr (.inr (.inr (.inr (.inl rfl))))
  have p6 : PolynomialKernel (cubicBspline : ℚ → ℚ) := .inr (.inr (.inr (.inr (.inr rfl))))
  have nn : ∀ {k : ℚ → ℚ} {R : ℚ}, VanishesFrom k R → (∀ s, |s| < R → 0 < k s) → ∀ s, 0 ≤ k s := by
    intro k R h1 h2 s
    rcases lt_or_ge |s| R with h | h
    · exact (h2 s h).le
    · exact (h1 s h).ge
  refine ⟨fun k hk => ?_, fun e he => ?_, fun e he => ?_⟩
  · simp only [List.mem_cons, List.not_mem_nil, or_false] at hk
    rcases hk with rfl | rfl | rfl | rfl
    · exact ⟨p1, fun s => by unfold box; split <;> norm_num⟩
    · exact ⟨p2, fun s => (C62_linear.2.2.2.1 s).1⟩
    · exact ⟨p5, nn C62_quadratic_bspline.2.1 C62_quadratic_bspline.2.2.1⟩
    · exact ⟨p6, nn C62_cubic_bspline.2.1 C62_cubic_bspline.2.2.1⟩
  · simp only [List.mem_cons, List.not_mem_nil, or_false] at he
    rcases he with rfl | rfl | rfl | rfl | rfl | rfl
    · exact ⟨p1, C62_box.2.1⟩
    · exact ⟨p2, fun s hs => C62_linear.2.1 s hs.le⟩
    · exact ⟨p3, fun s hs => C62_interpolating_quadratic.2.1 s hs.le⟩
    · exact ⟨p4, fun s hs => C62_interpolating_cubic.2.1 s hs.le⟩
    · exact ⟨p5, fun s hs => C62_quadratic_bspline.2.1 s hs.le⟩
    · exact ⟨p6, fun s hs => C62_cubic_bspline.2.1 s hs.le⟩
  · simp only [List.mem_cons, List.not_mem_nil, or_false] at he
    rcases he with rfl | rfl | rfl | rfl | rfl
    · exact ⟨p2, C62_linear_reconstructs⟩
    · exact ⟨p3, C62_quadratic_reconstructs 1⟩
    · exact ⟨p5, C62_quadratic_reconstructs (1 / 2)⟩
    · exact ⟨p4, (C62_cubic_linear_iff 0 (1 / 2)).2 (by norm_num)⟩
    · exact ⟨p6, (C62_cubic_linear_iff 1 0).2 (by norm_num)⟩

/-! ### Where it fails -/

/-- An image of 4 by 1 pixels whose left half is 100 and whose right half is 200. -/
def edgePixels : Mem Int := fun p => if p < 8 then 100 else 200

/-- C101, negative part: with the cubic kernel components can be below the least and above the greatest one of the image: next to an edge from 100 to 200
there are a 93 and a 206. -/
theorem C101_cubic_counterexample (m : Mem ℚ) (debug : Bool) : ComponentsIn 100 200 0 4 1 edgePixels ∧
    ∃ r, resizeExact 255 debug 4 1 8 64 interpolatingCubic 0 16 edgePixels m = some r ∧ r (componentAddress 16 8 2 0 0) = 93 ∧
      r (componentAddress 16 8 5 0 0) = 206 := by
  have hin : ComponentsIn 100 200 0 4 1 edgePixels := by
    intro x y c _
    unfold edgePixels
    split <;> norm_num
  refine ⟨hin, ?_⟩
  obtain ⟨r, e, v⟩ := resizeExact_run (top := 255) (k := interpolatingCubic) (.inr (.inr (.inr (.inl rfl)))) (w := 4) (h := 1) (newW := 8)
    (newH := 64) ⟨by norm_num, by norm_num, by norm_num, by norm_num⟩ 0 16 edgePixels m
    (fun x y c hc => ⟨by linarith [(hin x y c hc).1], by linarith [(hin x y c hc).2]⟩) debug
  refine ⟨r, e, ?_, ?_⟩
  · rw [v 2 0 0 ⟨by norm_num, by norm_num, by norm_num⟩, Int.floor_eq_iff]
    constructor <;> decide +kernel
  · rw [v 5 0 0 ⟨by norm_num, by norm_num, by norm_num⟩, Int.floor_eq_iff]
    constructor <;> decide +kernel

/-- An image of 17 by 1 pixels, of which the one in the middle is 200 and the others are 0. -/
def centrePixels : Mem Int := fun p => if 32 ≤ p ∧ p < 36 then 200 else 0

/-- C101, negative part: in binary32 this symmetric image, resized with `box` to 14 columns, is not symmetric: of the two columns in
the middle one has at most 0, the other at least 99. In exact arithmetic it is symmetric (`C101_mirror_columns`). -/
theorem C101_float_counterexample (m : Mem (Option ℚ)) (debug : Bool) : MirroredColumns 0 17 1 centrePixels centrePixels ∧
    ∃ (ax ay : Int → Int) (buf : Interval → Nat → Int) (r : Mem Int),
      resizeImage float32 (floatQuantum 255) debug 17 1 14 64 (boxOp float32Kernel) 0 68 0 (4 * (17 * 1)) ax ay buf centrePixels m = some r ∧
      r (componentAddress 68 14 6 0 0) ≤ 0 ∧ 99 ≤ r (componentAddress 68 14 7 0 0) ∧ ¬ MirroredColumns 68 14 64 r r := by
  have value8 : ∀ i j c, IsComponent 17 1 i j c → centrePixels (componentAddress 0 17 i j c) = if i = 8 then 200 else 0 := by
    intro i j c hc
    obtain ⟨⟨a1, a2⟩, ⟨b1, b2⟩, c1, c2⟩ := hc
    obtain rfl : j = 0 := by omega
    unfold centrePixels componentAddress
    by_cases h : i = 8
    · rw [if_pos h, if_pos (by omega)]
    · rw [if_neg h, if_neg (by omega)]
  refine ⟨fun x y c hc => ?_, ?_⟩
  · rw [value8 _ _ _ ⟨by have := hc.1; omega, hc.2⟩, value8 _ _ _ hc]
    by_cases h : x = 8
    · rw [if_pos h, if_pos (by omega)]
    · rw [if_neg h, if_neg (by omega)]
  obtain ⟨ax, ay, buf, r, e, hv, -⟩ := box_program 255 (by norm_num) (by norm_num) 17 1 14 64 (by norm_num) (by norm_num) (by norm_num)
    (by norm_num) 3 2 (by norm_num) (by norm_num) (by norm_num) (by norm_num) 0 68 centrePixels m (fun x y c hc => by
      rw [value8 _ _ _ hc]; split <;> norm_num) debug
  have rateX : Rational.mk2 14#64 17#64 = some ⟨14#64, 17#64⟩ := mk2_eq (by decide) ⟨by decide, by decide⟩ (by decide +kernel)
  have p6 : kernelPosition 6 ⟨14#64, 17#64⟩ = some ⟨207#64, 28#64⟩ :=
    position_eq ⟨by decide, by decide⟩ (by decide +kernel) (by decide) (by decide) (by decide) ⟨by decide, by decide⟩ (by decide +kernel)
  have p7 : kernelPosition 7 ⟨14#64, 17#64⟩ = some ⟨241#64, 28#64⟩ :=
    position_eq ⟨by decide, by decide⟩ (by decide +kernel) (by decide) (by decide) (by decide) ⟨by decide, by decide⟩ (by decide +kernel)
  have w6 : weight float32 (boxOp float32Kernel) ⟨14#64, 17#64⟩ ⟨207#64, 28#64⟩ 8 = some 0 := by decide +kernel
  have w7 : weight float32 (boxOp float32Kernel) ⟨14#64, 17#64⟩ ⟨241#64, 28#64⟩ 8 = some 1 := by decide +kernel
  have c8 : ∀ (SX SY : Finset Int), (∀ i ∈ SX, 0 ≤ i ∧ i < 17) → (∀ j ∈ SY, 0 ≤ j ∧ j < 1) → SY.Nonempty →
      average SX SY (fun i j => (centrePixels (componentAddress 0 17 i j 0) : ℚ)) = if 8 ∈ SX then 200 / (SX.card : ℚ) else 0 := by
    intro SX SY hX hY hne
    have hSY : SY = {0} := Finset.eq_singleton_iff_nonempty_unique_mem.2 ⟨hne, fun j hj => by have := hY j hj; omega⟩
    unfold average
    subst hSY
    have : ∀ i ∈ SX, ∑ j ∈ ({0} : Finset Int), (centrePixels (componentAddress 0 17 i j 0) : ℚ) = if i = 8 then 200 else 0 := by
      intro i hi
      rw [Finset.sum_singleton, value8 i 0 0 ⟨hX i hi, by norm_num, by norm_num⟩]
      split <;> norm_num
    rw [Finset.sum_congr rfl this, Finset.sum_ite_eq']
    simp only [Finset.card_singleton, Nat.cast_one, mul_one]
    split <;> simp
  have d6 : r (componentAddress 68 14 6 0 0) ≤ 0 := by
    obtain ⟨v, SX, SY, hX, hY, ⟨rate, p, er, ep, hw⟩, -, hr, hb⟩ := hv 6 0 0 ⟨by norm_num, by norm_num, by norm_num⟩
    obtain rfl : rate = _ := Option.some.inj (er.symm.trans rateX)
    obtain rfl : p = _ := Option.some.inj (ep.symm.trans p6)
    have h8 : 8 ∉ SX := by
      intro h
      have := hw 8 ⟨by norm_num, by norm_num⟩
      rw [w6, if_pos h] at this
      exact absurd (Option.some.inj this) (by norm_num)
    rw [c8 SX SY hX.range hY.range hY.nonempty, if_neg h8, sub_zero] at hb
    have := (abs_le.1 hb).2
    norm_num at this
    have : v < 1 := by linarith
    rw [hr, ← Int.lt_add_one_iff, Int.floor_lt]
    simpa using this
  have d7 : 99 ≤ r (componentAddress 68 14 7 0 0) := by
    obtain ⟨v, SX, SY, hX, hY, ⟨rate, p, er, ep, hw⟩, -, hr, hb⟩ := hv 7 0 0 ⟨by norm_num, by norm_num, by norm_num⟩
    obtain rfl : rate = _ := Option.some.inj (er.symm.trans rateX)
    obtain rfl : p = _ := Option.some.inj (ep.symm.trans p7)
    have h8 : 8 ∈ SX := by
      by_contra h
      have := hw 8 ⟨by norm_num, by norm_num⟩
      rw [w7, if_neg h] at this
      exact absurd (Option.some.inj this) (by norm_num)
    have hsub : SX ⊆ {8, 9} := by
      intro i hi
      have h := hX.far i hi
      have e1 : samplePosition 17 14 7 = 241 / 28 := by unfold samplePosition; norm_num
      have e2 : min (((14 : Int) : ℚ) / (17 : Int)) 1 = 14 / 17 := by norm_num
      rw [e1, e2, abs_le] at h
      norm_num at h
      have a : (7 : ℚ) < i := by linarith [h.1]
      have b : (i : ℚ) < 10 := by linarith [h.2]
      have a' : 7 < i := by exact_mod_cast a
      have b' : i < 10 := by exact_mod_cast b
      have : i = 8 ∨ i = 9 := by omega
      simpa using this
    have hcard : (SX.card : ℚ) ≤ 2 := by exact_mod_cast (Finset.card_le_card hsub).trans (by decide)
    have hpos : (0 : ℚ) < SX.card := by exact_mod_cast Finset.card_pos.2 ⟨8, h8⟩
    rw [c8 SX SY hX.range hY.range hY.nonempty, if_pos h8] at hb
    have h100 : (100 : ℚ) ≤ 200 / SX.card := by rw [le_div_iff₀ hpos]; linarith
    have := (abs_le.1 hb).1
    norm_num at this
    rw [hr, Int.le_floor]
    push_cast
    linarith
  refine ⟨ax, ay, buf, r, e, d6, d7, fun hm => ?_⟩
  have := hm 6 0 0 ⟨by norm_num, by norm_num, by norm_num⟩
  norm_num at this
  omega

/-- An image of 40 by 64 pixels that becomes brighter to the right and downwards. -/
def gradientPixels : Mem Int := fun p => if 0 ≤ p ∧ p < 10240 then 10 + 2 * (p / 4 % 40) + p / 160 else 0

theorem gradient_pixels (i j d : Int) (hd : IsComponent 40 64 i j d) :
    gradientPixels (componentAddress 0 40 i j d) = 10 + 2 * i + 1 * j := by
  obtain ⟨⟨a1, a2⟩, ⟨b1, b2⟩, c1, c2⟩ := hd
  unfold gradientPixels componentAddress
  rw [if_pos (by omega)]
  omega

-- With twice as many columns and the kernel `linear`, the pixel in column 11 is at 5.25: 10 + 2 * 5.25 + 3 is cut to 23.
example (m : Mem ℚ) : ∃ r1, resizeExact 255 true 40 64 80 64 linear 0 10240 gradientPixels m = some r1 ∧
    r1 (componentAddress 10240 80 11 3 2) = 23 := by
  obtain ⟨r1, e, h⟩ := C101_gradient (C101_kernels.2.2 (linear, 1) (by simp)).1 0 10240 gradientPixels m true (top := 255)
    (C101_kernels.2.2 (linear, 1) (by simp)).2 (w := 40) (h := 64) (newW := 80) (newH := 64)
    ⟨by norm_num, by norm_num, by norm_num, by norm_num⟩ (by norm_num) (by norm_num)
    (fun i j d hd => by
      rw [gradient_pixels i j d hd]
      have := hd.1
      have := hd.2.1
      omega) (fun _ => 10) (fun _ => 2) (fun _ => 1) gradient_pixels
  refine ⟨r1, e, ?_⟩
  rw [h 11 3 2 ⟨by norm_num, by norm_num, by norm_num⟩ (by norm_num [samplePosition]) (by norm_num [samplePosition])
    (by norm_num [samplePosition]) (by norm_num [samplePosition]), Int.floor_eq_iff]
  constructor <;> norm_num [samplePosition, limited]

-- The image of the counterexample is symmetric after resizing in exact arithmetic.
example (m : Mem ℚ) : ∃ r, resizeExact 255 true 17 1 14 64 box 0 68 centrePixels m = some r ∧
    r (componentAddress 68 14 7 0 0) = r (componentAddress 68 14 6 0 0) := by
  obtain ⟨r1, r2, e1, e2, h⟩ := C101_mirror_columns (C101_kernels.1 box (by simp)).1 0 68 centrePixels centrePixels m m true (top := 255)
    (w := 17) (h := 1) (newW := 14) (newH := 64) ⟨by norm_num, by norm_num, by norm_num, by norm_num⟩
    (fun x y c _ => by unfold centrePixels; split <;> norm_num) (C101_float_counterexample (fun _ => none) true).1
  obtain rfl : r1 = r2 := Option.some.inj (e1.symm.trans e2)
  exact ⟨r1, e1, h 6 0 0 ⟨by norm_num, by norm_num, by norm_num⟩⟩

end Nda
