import Verif.Lemmas.ResampleImage
import Verif.Lemmas.ArrayShape
/-
Lemmas about `resample` (C51): temporaries, kernels in memory, strips.
-/
namespace Nda
open Spec
variable {F : Type}

theorem ciInit_eq {V v : Int} (h : Describes V v) : ciInit V v = v := by
  unfold ciInit
  split
  · rename_i hs
    have : V ≠ -9 := by simpa [isStatic, dynamic] using hs
    exact (h this).symm
  · rfl

/-- The dims of a temporary image. -/
theorem tempImageDims_eq {x y c : SDim} (hx : ProperDim x) (hy : ProperDim y) (hc : ProperDim c)
    (hfit : x.val.extent * y.val.extent * c.val.extent ≤ 9223372036854775807) :
    tempImageDims x y c = [⟨⟨x.ty.min, x.ty.extent, 1⟩, ⟨x.val.min, x.val.extent, 1⟩⟩,
      ⟨⟨y.ty.min, y.ty.extent, -9⟩, ⟨y.val.min, y.val.extent, x.val.extent⟩⟩,
      ⟨⟨c.ty.min, c.ty.extent, -9⟩, ⟨c.val.min, c.val.extent, x.val.extent * y.val.extent⟩⟩] := by
  obtain ⟨⟨hx1, hx2, _⟩, hx3⟩ := hx
  obtain ⟨⟨hy1, hy2, _⟩, hy3⟩ := hy
  obtain ⟨⟨hc1, hc2, _⟩, hc3⟩ := hc
  have h1 : (x.withStride 1).val = ⟨x.val.min, x.val.extent, 1⟩ := by
    simp only [SDim.withStride, DimT.make, ciInit_eq hx1, ciInit_eq hx2]
    rfl
  have h2 : (y.withStride dynamic).val = ⟨y.val.min, y.val.extent, -9223372036854775808⟩ := by
    simp only [SDim.withStride, DimT.make, ciInit_eq hy1, ciInit_eq hy2]
    rfl
  have h3 : (c.withStride dynamic).val = ⟨c.val.min, c.val.extent, -9223372036854775808⟩ := by
    simp only [SDim.withStride, DimT.make, ciInit_eq hc1, ciInit_eq hc2]
    rfl
  have hr := resolve_prefix (a := [⟨x.val.min, x.val.extent, 1⟩])
    (b := [⟨y.val.min, y.val.extent, -9223372036854775808⟩, ⟨c.val.min, c.val.extent, -9223372036854775808⟩])
    (by
      intro d hd
      simp only [List.cons_append, List.nil_append, List.mem_cons, List.not_mem_nil, or_false] at hd
      rcases hd with rfl | rfl | rfl <;> assumption)
    (by
      intro d hd
      simp only [List.mem_cons, List.not_mem_nil, or_false] at hd
      rcases hd with rfl | rfl <;> exact fun h => h rfl)
    (by simpa [mul_assoc, indexMax] using hfit)
  simp only [prodStrides, List.cons_append, List.nil_append, one_mul] at hr
  have hv : values [x.withStride 1, y.withStride dynamic, c.withStride dynamic] =
      [⟨x.val.min, x.val.extent, 1⟩, ⟨y.val.min, y.val.extent, -9223372036854775808⟩,
        ⟨c.val.min, c.val.extent, -9223372036854775808⟩] := by
    simp only [values, List.map_cons, List.map_nil, h1, h2, h3]
  unfold tempImageDims
  simp only [hv, hr, List.zipWith_cons_cons, List.zipWith_nil_right, h1, h2, h3]
  rfl

/-- A temporary image: where its pixels are. -/
theorem tempImage_spec {x y c : SDim} (hx : ProperDim x) (hy : ProperDim y) (hc : ProperDim c)
    (hfit : x.val.extent * y.val.extent * c.val.extent ≤ 9223372036854775807) (buf : Int) :
    (tempImage x y c buf).base = some buf ∧
    (ProperDim (tempImage x y c buf).x ∧ ProperDim (tempImage x y c buf).y ∧
      ProperDim (tempImage x y c buf).c) ∧
    (tempImage x y c buf).x.val = ⟨x.val.min, x.val.extent, 1⟩ ∧
    (tempImage x y c buf).y.val = ⟨y.val.min, y.val.extent, x.val.extent⟩ ∧
    (tempImage x y c buf).c.val = ⟨c.val.min, c.val.extent, x.val.extent * y.val.extent⟩ := by
  have hd := tempImageDims_eq hx hy hc hfit
  have hx3 := hx.2
  have hy3 := hy.2
  have hc3 := hc.2
  have hxy : 0 < x.val.extent * y.val.extent := mul_pos hx3 hy3
  have hs : values [⟨⟨x.ty.min, x.ty.extent, 1⟩, ⟨x.val.min, x.val.extent, 1⟩⟩,
      ⟨⟨y.ty.min, y.ty.extent, -9⟩, ⟨y.val.min, y.val.extent, x.val.extent⟩⟩,
      ⟨⟨c.ty.min, c.ty.extent, -9⟩, ⟨c.val.min, c.val.extent, x.val.extent * y.val.extent⟩⟩] =
      [⟨x.val.min, x.val.extent, 1⟩, ⟨y.val.min, y.val.extent, x.val.extent⟩,
        ⟨c.val.min, c.val.extent, x.val.extent * y.val.extent⟩] := rfl
  have hmin : Shape.flatMin [⟨x.val.min, x.val.extent, 1⟩, ⟨y.val.min, y.val.extent, x.val.extent⟩,
        ⟨c.val.min, c.val.extent, x.val.extent * y.val.extent⟩] = 0 := by
    apply flatMin_of_nonneg_strides
    intro d hd
    simp only [List.mem_cons, List.not_mem_nil, or_false] at hd
    rcases hd with rfl | rfl | rfl
    · exact zero_le_one
    · exact hx3.le
    · exact hxy.le
  have hext : 0 < Shape.flatExtent [⟨x.val.min, x.val.extent, 1⟩, ⟨y.val.min, y.val.extent, x.val.extent⟩,
        ⟨c.val.min, c.val.extent, x.val.extent * y.val.extent⟩] := by
    apply flatExtent_pos
    intro d hd
    simp only [List.mem_cons, List.not_mem_nil, or_false] at hd
    rcases hd with rfl | rfl | rfl <;> assumption
  unfold tempImage
  rw [hd]
  simp only [hs, hmin, if_pos hext, sub_zero, true_and]
  obtain ⟨⟨hx1, hx2, _⟩, _⟩ := hx
  obtain ⟨⟨hy1, hy2, _⟩, _⟩ := hy
  obtain ⟨⟨hc1, hc2, _⟩, _⟩ := hc
  refine ⟨⟨⟨⟨hx1, hx2, fun _ => rfl⟩, hx3⟩, ⟨⟨hy1, hy2, fun h => absurd rfl h⟩, hy3⟩,
    ⟨⟨hc1, hc2, fun h => absurd rfl h⟩, hc3⟩⟩, trivial⟩

/-- Pixels of an image with strides `1, ex, ex*ey` are distinct and within the allocation. -/
theorem dense_pixels {a : Image3} {b ex ey ec : Int} (hex : 0 < ex) (hey : 0 < ey)
    {mx my mc : Int} (hx : a.x.val = ⟨mx, ex, 1⟩) (hy : a.y.val = ⟨my, ey, ex⟩)
    (hc : a.c.val = ⟨mc, ec, ex * ey⟩) :
    (∀ x y c x' y' c', inRangeOf a.x x → inRangeOf a.y y → inRangeOf a.c c →
      inRangeOf a.x x' → inRangeOf a.y y' → inRangeOf a.c c' →
      pixelAddress a b x y c = pixelAddress a b x' y' c' → x = x' ∧ y = y' ∧ c = c') ∧
    (∀ p, PixelOf a b p → b ≤ p ∧ p < b + ex * ey * ec) := by
  have step : ∀ {e u v u' v' : Int}, 0 < e → 0 ≤ u → u < e → 0 ≤ u' → u' < e →
      u + v * e = u' + v' * e → u = u' ∧ v = v' := by
    intro e u v u' v' he h1 h2 h3 h4 h
    have hv : v = v' := by
      by_contra hne
      rcases lt_or_gt_of_ne hne with hl | hl
      · nlinarith
      · nlinarith
    subst hv
    exact ⟨by omega, rfl⟩
  unfold PixelOf inRangeOf pixelAddress
  rw [hx, hy, hc]
  simp only
  constructor
  · intro x y c x' y' c' h1 h2 h3 h1' h2' h3' e
    obtain ⟨e1, e2⟩ := step (e := ex) (u := x - mx) (v := (y - my) + (c - mc) * ey)
      (u' := x' - mx) (v' := (y' - my) + (c' - mc) * ey) hex (by omega) (by omega) (by omega) (by omega)
      (by linarith)
    obtain ⟨e3, e4⟩ := step hey (by omega) (by omega) (by omega) (by omega) e2
    omega
  · rintro p ⟨x, y, c, h1, h2, h3, rfl⟩
    obtain ⟨u, hu⟩ : ∃ u, u = x - mx := ⟨_, rfl⟩
    obtain ⟨v, hv⟩ : ∃ v, v = y - my := ⟨_, rfl⟩
    obtain ⟨w, hw⟩ : ∃ w, w = c - mc := ⟨_, rfl⟩
    rw [← hu, ← hv, ← hw]
    have a1 : 0 ≤ v * ex := mul_nonneg (by omega) hex.le
    have a2 : 0 ≤ w * (ex * ey) := mul_nonneg (by omega) (mul_pos hex hey).le
    have a3 : v * ex ≤ (ey - 1) * ex := mul_le_mul_of_nonneg_right (by omega) hex.le
    have a4 : w * (ex * ey) ≤ (ec - 1) * (ex * ey) :=
      mul_le_mul_of_nonneg_right (by omega) (mul_pos hex hey).le
    constructor
    · omega
    · have e1 : (ey - 1) * ex = ex * ey - ex := by ring
      have e2 : (ec - 1) * (ex * ey) = ex * ey * ec - ex * ey := by ring
      omega

/-- Constructing an image only changes its pixels. -/
theorem constructImage_frame (o : FloatOps F) {a : Image3} {b : Int} (hb : a.base = some b)
    (h : ProperDim a.x ∧ ProperDim a.y ∧ ProperDim a.c) (m : Mem F) (p : Int) (hp : ¬ PixelOf a b p) :
    constructImage o a m p = m p := by
  unfold constructImage
  refine (C19_fill ⟨a.base, values a.dims⟩ b hb ?_ o.zero m).2 p ?_
  · intro d hd
    simp only [values, Image3.dims, List.map_cons, List.map_nil, List.mem_cons, List.not_mem_nil, or_false] at hd
    rcases hd with rfl | rfl | rfl
    exacts [h.1.2.le, h.2.1.2.le, h.2.2.2.le]
  · intro i hi
    match i, hi with
    | [x, y, c], hi =>
      rintro rfl
      exact hp ⟨x, y, c, hi.1, hi.2.1, hi.2.2.1, (pixelAddress_eq a b x y c).symm⟩

theorem mem_kernelCells {ks : Dense1 (Dense1 F)} {x r : Int} :
    (x, r) ∈ kernelCells ks ↔ KernelIndex ks x r := by
  unfold kernelCells KernelIndex InInterval
  simp only [List.mem_flatten, List.mem_map, List.mem_range]
  constructor
  · rintro ⟨l, ⟨i, hi, rfl⟩, hl⟩
    obtain ⟨j, hj, e⟩ := List.mem_map.1 hl
    rw [List.mem_range] at hj
    obtain ⟨rfl, rfl⟩ := Prod.mk.inj e
    omega
  · rintro ⟨h1, h2⟩
    have e : ks.dom.min + ((x - ks.dom.min).toNat : Int) = x := by omega
    refine ⟨_, ⟨(x - ks.dom.min).toNat, by omega, rfl⟩, List.mem_map.2
      ⟨(r - (ks.data x).dom.min).toNat, ?_, ?_⟩⟩
    · rw [e, List.mem_range]; omega
    · rw [e]
      congr 1
      omega

theorem placeKernels_spec {ks : Dense1 (Dense1 F)} {addr : Int → Int}
    (hinj : ∀ x r x' r', KernelIndex ks x r → KernelIndex ks x' r' →
      kernelAddress ks addr x r = kernelAddress ks addr x' r' → x = x' ∧ r = r') (m : Mem F) :
    (∀ x r, KernelIndex ks x r →
      placeKernels ks addr m (kernelAddress ks addr x r) = (ks.data x).data r) ∧
    ∀ p, ¬ KernelCell ks addr p → placeKernels ks addr m p = m p := by
  have key : ∀ (l : List (Int × Int)), (∀ q ∈ l, KernelIndex ks q.1 q.2) → ∀ m : Mem F,
      (∀ q, KernelIndex ks q.1 q.2 → (q ∈ l → l.foldl (fun m p =>
        m.set (addr p.1 + (p.2 - (ks.data p.1).dom.min)) ((ks.data p.1).data p.2)) m
          (kernelAddress ks addr q.1 q.2) = (ks.data q.1).data q.2) ∧
        (m (kernelAddress ks addr q.1 q.2) = (ks.data q.1).data q.2 → l.foldl (fun m p =>
        m.set (addr p.1 + (p.2 - (ks.data p.1).dom.min)) ((ks.data p.1).data p.2)) m
          (kernelAddress ks addr q.1 q.2) = (ks.data q.1).data q.2)) ∧
      ∀ p, ¬ KernelCell ks addr p → l.foldl (fun m p =>
        m.set (addr p.1 + (p.2 - (ks.data p.1).dom.min)) ((ks.data p.1).data p.2)) m p = m p := by
    intro l
    induction l with
    | nil => intro _ m; simp
    | cons q0 l ih =>
      intro hl m
      have hq0 := hl q0 (by simp)
      obtain ⟨i1, i2⟩ := ih (fun q hq => hl q (by simp [hq]))
        (m.set (addr q0.1 + (q0.2 - (ks.data q0.1).dom.min)) ((ks.data q0.1).data q0.2))
      have hset : (m.set (addr q0.1 + (q0.2 - (ks.data q0.1).dom.min)) ((ks.data q0.1).data q0.2))
          (kernelAddress ks addr q0.1 q0.2) = (ks.data q0.1).data q0.2 := by
        unfold Mem.set kernelAddress
        simp
      refine ⟨fun q hq => ⟨fun hm => ?_, fun hm => ?_⟩, fun p hp => ?_⟩
      · rw [List.foldl_cons]
        rcases List.mem_cons.1 hm with rfl | hm
        · exact (i1 q hq).2 hset
        · exact (i1 q hq).1 hm
      · rw [List.foldl_cons]
        apply (i1 q hq).2
        by_cases he : kernelAddress ks addr q.1 q.2 = kernelAddress ks addr q0.1 q0.2
        · obtain ⟨e1, e2⟩ := hinj _ _ _ _ hq hq0 he
          rw [e1, e2]
          exact hset
        · unfold Mem.set
          exact (if_neg he).trans hm
      · rw [List.foldl_cons, i2 p hp]
        unfold Mem.set
        rw [if_neg]
        rintro rfl
        exact hp ⟨q0.1, q0.2, hq0, rfl⟩
  obtain ⟨k1, k2⟩ := key (kernelCells ks) (fun q hq => mem_kernelCells.1 hq) m
  exact ⟨fun x r h => (k1 (x, r) h).1 (mem_kernelCells.2 h), k2⟩

/-- One strip of 64 rows. -/
theorem resampleStrip_spec (o : FloatOps F) (debug : Bool) {in_ out : Image3} {bi bo : Int}
    {kx ky : Dense1 (Dense1 F)} {ax ay : Int → Int} {buf : Interval → Nat → Int} {yo : Interval}
    (hyo : yo.extent = 64 ∧ out.y.val.min ≤ yo.min ∧ yo.min + 64 ≤ out.y.val.min + out.y.val.extent)
    (hbi : in_.base = some bi) (hbo : out.base = some bo)
    (hin : ProperDim in_.x ∧ ProperDim in_.y ∧ ProperDim in_.c)
    (hout : ProperDim out.x ∧ ProperDim out.y ∧ ProperDim out.c)
    (hcs : ∀ c, inRangeOf out.c c → inRangeOf in_.c c)
    (hfit1 : 64 * in_.x.val.extent * out.c.val.extent ≤ 9223372036854775807)
    (hfit2 : 64 * out.x.val.extent * out.c.val.extent ≤ 9223372036854775807)
    (hkx : ∀ x, inRangeOf out.x x → InInterval kx.dom x ∧ 0 ≤ (kx.data x).dom.extent ∧
      ∀ r, InInterval (kx.data x).dom r → inRangeOf in_.x r)
    (hky : ∀ y, inRangeOf out.y y → InInterval ky.dom y ∧ 0 ≤ (ky.data y).dom.extent ∧
      ∀ r, InInterval (ky.data y).dom r → inRangeOf in_.y r)
    (sep : SeparateObjects in_ out bi bo kx ky ax ay buf) (m : Mem F)
    (hmx : ∀ x r, KernelIndex kx x r → m (kernelAddress kx ax x r) = (kx.data x).data r)
    (hmy : ∀ x r, KernelIndex ky x r → m (kernelAddress ky ay x r) = (ky.data x).data r) :
    ∃ m', resampleStrip o debug in_ out kx ky ax ay buf m yo = some m' ∧
      (∀ x y c, inRangeOf out.x x → InInterval yo y → inRangeOf out.c c →
        m' (pixelAddress out bo x y c) = kernelSum o (kx.data x) fun rx =>
          kernelSum o (ky.data y) fun ry => m (pixelAddress in_ bi rx ry c)) ∧
      ∀ p, (∀ x y c, inRangeOf out.x x → InInterval yo y → inRangeOf out.c c →
          p ≠ pixelAddress out bo x y c) →
        (∀ n < 3, ¬ TempCell in_ out buf yo n p) → m' p = m p := by
  obtain ⟨hy1, hy2, hy3⟩ := hyo
  -- the crop of the output
  obtain ⟨outY, houtY⟩ : ∃ t, t = out.crop out.x ⟨⟨dynamic, 64, dynamic⟩, ⟨yo.min, yo.extent, unresolved⟩⟩ out.c :=
    ⟨_, rfl⟩
  obtain ⟨xv, xf⟩ := rangeInterval_val (c := out.x) (d := out.x) ⟨hout.1.1.1, hout.1.1.2.1⟩ hout.1.1
  obtain ⟨yv, yf⟩ := rangeInterval_val (c := ⟨⟨dynamic, 64, dynamic⟩, ⟨yo.min, yo.extent, unresolved⟩⟩)
    (d := out.y) ⟨fun h => absurd rfl h, fun _ => hy1⟩ hout.2.1.1
  obtain ⟨cv, cf⟩ := rangeInterval_val (c := out.c) (d := out.c) ⟨hout.2.2.1.1, hout.2.2.1.2.1⟩ hout.2.2.1
  have oYb : outY.base = some (bo + (yo.min - out.y.val.min) * out.y.val.stride) := by
    rw [houtY]
    unfold Image3.crop pointerAdd
    rw [hbo, flatOffset_eq]
    simp [values, Image3.dims, offsetOf]
  have oYx : outY.x.val = ⟨out.x.val.min, out.x.val.extent, out.x.val.stride⟩ := by rw [houtY]; exact xv
  have oYy : outY.y.val = ⟨yo.min, 64, out.y.val.stride⟩ := by rw [houtY]; exact yv.trans (by rw [hy1])
  have oYc : outY.c.val = ⟨out.c.val.min, out.c.val.extent, out.c.val.stride⟩ := by rw [houtY]; exact cv
  have oYp : ProperDim outY.x ∧ ProperDim outY.y ∧ ProperDim outY.c := by
    refine ⟨⟨?_, ?_⟩, ⟨?_, ?_⟩, ?_, ?_⟩
    · rw [houtY]; exact xf
    · rw [oYx]; exact hout.1.2
    · rw [houtY]; exact yf
    · rw [oYy]; show (0:Int) < 64; omega
    · rw [houtY]; exact cf
    · rw [oYc]; exact hout.2.2.2
  have oYaddr : ∀ x y c, pixelAddress outY (bo + (yo.min - out.y.val.min) * out.y.val.stride) x y c =
      pixelAddress out bo x y c := by
    intro x y c
    unfold pixelAddress
    rw [oYx, oYy, oYc]
    ring
  have rX : ∀ x, inRangeOf outY.x x ↔ inRangeOf out.x x := by intro x; unfold inRangeOf; rw [oYx]
  have rY : ∀ y, inRangeOf outY.y y ↔ InInterval yo y := by
    intro y; unfold inRangeOf InInterval; rw [oYy, hy1]
  have rC : ∀ c, inRangeOf outY.c c ↔ inRangeOf out.c c := by intro c; unfold inRangeOf; rw [oYc]
  have rYo : ∀ y, InInterval yo y → inRangeOf out.y y := by
    intro y; unfold inRangeOf InInterval; omega
  -- the temporaries
  obtain ⟨strip, hstrip⟩ : ∃ t, t = tempImage in_.x outY.y outY.c (buf yo 0) := ⟨_, rfl⟩
  obtain ⟨stripTr, hstripTr⟩ : ∃ t, t = tempImage outY.y in_.x outY.c (buf yo 1) := ⟨_, rfl⟩
  obtain ⟨outTr, houtTr⟩ : ∃ t, t = tempImage outY.y outY.x outY.c (buf yo 2) := ⟨_, rfl⟩
  have e64 : outY.y.val.extent = 64 := by rw [oYy]
  have exX : outY.x.val.extent = out.x.val.extent := by rw [oYx]
  have exC : outY.c.val.extent = out.c.val.extent := by rw [oYc]
  obtain ⟨sb, sp, sx, sy, sc⟩ := tempImage_spec hin.1 oYp.2.1 oYp.2.2
    (by rw [e64, exC]; linarith) (buf yo 0)
  obtain ⟨tb, tp, tx, ty, tc⟩ := tempImage_spec oYp.2.1 hin.1 oYp.2.2
    (by rw [e64, exC]; linarith) (buf yo 1)
  obtain ⟨ub, up, ux, uy, uc⟩ := tempImage_spec oYp.2.1 oYp.1 oYp.2.2
    (by rw [e64, exC, exX]; linarith) (buf yo 2)
  rw [← hstrip] at sb sp sx sy sc
  rw [← hstripTr] at tb tp tx ty tc
  rw [← houtTr] at ub up ux uy uc
  obtain ⟨si, sd⟩ := dense_pixels (b := buf yo 0) hin.1.2 oYp.2.1.2 sx sy sc
  obtain ⟨ti, td⟩ := dense_pixels (b := buf yo 1) oYp.2.1.2 hin.1.2 tx ty tc
  obtain ⟨ui, ud⟩ := dense_pixels (b := buf yo 2) oYp.2.1.2 oYp.1.2 ux uy uc
  have sT : ∀ p, PixelOf strip (buf yo 0) p → TempCell in_ out buf yo 0 p := by
    intro p hp
    have := sd p hp
    rw [e64, exC] at this
    unfold TempCell tempSize
    rw [if_neg (by omega)]
    rw [show 64 * in_.x.val.extent = in_.x.val.extent * 64 by ring]
    exact this
  have tT : ∀ p, PixelOf stripTr (buf yo 1) p → TempCell in_ out buf yo 1 p := by
    intro p hp
    have := td p hp
    rw [e64, exC] at this
    unfold TempCell tempSize
    rw [if_neg (by omega)]
    exact this
  have uT : ∀ p, PixelOf outTr (buf yo 2) p → TempCell in_ out buf yo 2 p := by
    intro p hp
    have := ud p hp
    rw [e64, exC, exX] at this
    unfold TempCell tempSize
    rw [if_pos rfl]
    exact this
  have srX : ∀ x, inRangeOf strip.x x ↔ inRangeOf in_.x x := by intro x; unfold inRangeOf; rw [sx]
  have srY : ∀ y, inRangeOf strip.y y ↔ InInterval yo y := by
    intro y; rw [← rY]; unfold inRangeOf; rw [sy]
  have srC : ∀ c, inRangeOf strip.c c ↔ inRangeOf out.c c := by
    intro c; rw [← rC]; unfold inRangeOf; rw [sc]
  have trX : ∀ y, inRangeOf stripTr.x y ↔ InInterval yo y := by
    intro y; rw [← rY]; unfold inRangeOf; rw [tx]
  have trY : ∀ x, inRangeOf stripTr.y x ↔ inRangeOf in_.x x := by intro x; unfold inRangeOf; rw [ty]
  have trC : ∀ c, inRangeOf stripTr.c c ↔ inRangeOf out.c c := by
    intro c; rw [← rC]; unfold inRangeOf; rw [tc]
  have urX : ∀ y, inRangeOf outTr.x y ↔ InInterval yo y := by
    intro y; rw [← rY]; unfold inRangeOf; rw [ux]
  have urY : ∀ x, inRangeOf outTr.y x ↔ inRangeOf out.x x := by
    intro x; rw [← rX]; unfold inRangeOf; rw [uy]
  have urC : ∀ c, inRangeOf outTr.c c ↔ inRangeOf out.c c := by
    intro c; rw [← rC]; unfold inRangeOf; rw [uc]
  have xp : (0:Int) < in_.x.val.extent := hin.1.2
  have oxp : (0:Int) < out.x.val.extent := hout.1.2
  -- first pass
  obtain ⟨m1, hm1⟩ : ∃ t, t = constructImage o strip m := ⟨_, rfl⟩
  have f1 : ∀ p, ¬ PixelOf strip (buf yo 0) p → m1 p = m p := by
    intro p hp; rw [hm1]; exact constructImage_frame o sb sp m p hp
  obtain ⟨m2, e2, v2, f2⟩ := resampleY_spec o debug (in_ := in_) (out := strip) (ks := ky) (kaddr := ay)
    si hbi sb hin sp (by rw [sx, sc]; exact ⟨by simp, by simp only [e64]; omega⟩)
    (fun x h => (srX x).1 h) (fun c h => hcs c ((srC c).1 h))
    (fun y h => hky y (rYo y ((srY y).1 h)))
    (fun p h => (sep.temp yo 0 p (by omega) (sT p h)).1)
    (fun p h => (sep.temp yo 0 p (by omega) (sT p h)).2.2.2) m1
    (by
      intro y r hy hr
      have hk : KernelIndex ky y r := ⟨(hky y (rYo y ((srY y).1 hy))).1, hr⟩
      rw [f1, hmy y r hk]
      exact fun h => (sep.temp yo 0 _ (by omega) (sT _ h)).2.2.2 ⟨y, r, hk, rfl⟩)
  -- transposing
  obtain ⟨m3, hm3⟩ : ∃ t, t = constructImage o stripTr m2 := ⟨_, rfl⟩
  have f3 : ∀ p, ¬ PixelOf stripTr (buf yo 1) p → m3 p = m2 p := by
    intro p hp; rw [hm3]; exact constructImage_frame o tb tp m2 p hp
  obtain ⟨m4, e4, v4, f4⟩ := transposed_spec debug (a := stripTr) (b := strip) ti tb sb tp sp
    (by rw [tx, sy]; exact ⟨rfl, rfl⟩) (by rw [ty, sx]; exact ⟨rfl, rfl⟩) (by rw [tc, sc]; exact ⟨rfl, rfl⟩)
    (fun p h h' => sep.temps yo 1 0 p (by omega) (by omega) (by omega) (tT p h) (sT p h')) m3
  -- second pass
  obtain ⟨m5, hm5⟩ : ∃ t, t = constructImage o outTr m4 := ⟨_, rfl⟩
  have f5 : ∀ p, ¬ PixelOf outTr (buf yo 2) p → m5 p = m4 p := by
    intro p hp; rw [hm5]; exact constructImage_frame o ub up m4 p hp
  have old : ∀ p, (∀ n < 3, ¬ TempCell in_ out buf yo n p) → m5 p = m p := by
    intro p hp
    have h0 := hp 0 (by omega)
    have h1 := hp 1 (by omega)
    have h2 := hp 2 (by omega)
    rw [f5 p fun h => h2 (uT p h), f4 p fun h => h1 (tT p h), f3 p fun h => h1 (tT p h),
      f2 p fun h => h0 (sT p h), f1 p fun h => h0 (sT p h)]
  obtain ⟨m6, e6, v6, f6⟩ := resampleY_spec o debug (in_ := stripTr) (out := outTr) (ks := kx) (kaddr := ax)
    ui tb ub tp up (by rw [ux, uc]; exact ⟨by simp, by simp only [e64, exX]; omega⟩)
    (fun y h => (trX y).2 ((urX y).1 h)) (fun c h => (trC c).2 ((urC c).1 h))
    (fun x h => ⟨(hkx x ((urY x).1 h)).1, (hkx x ((urY x).1 h)).2.1,
      fun r hr => (trY r).2 ((hkx x ((urY x).1 h)).2.2 r hr)⟩)
    (fun p h h' => sep.temps yo 2 1 p (by omega) (by omega) (by omega) (uT p h) (tT p h'))
    (fun p h => (sep.temp yo 2 p (by omega) (uT p h)).2.2.1) m5
    (by
      intro x r hx hr
      have hk : KernelIndex kx x r := ⟨(hkx x ((urY x).1 hx)).1, hr⟩
      rw [old, hmx x r hk]
      exact fun n hn h => (sep.temp yo n _ hn h).2.2.1 ⟨x, r, hk, rfl⟩)
  -- transposing back
  have oYi : ∀ x y c x' y' c', inRangeOf outY.x x → inRangeOf outY.y y → inRangeOf outY.c c →
      inRangeOf outY.x x' → inRangeOf outY.y y' → inRangeOf outY.c c' →
      pixelAddress outY (bo + (yo.min - out.y.val.min) * out.y.val.stride) x y c =
        pixelAddress outY (bo + (yo.min - out.y.val.min) * out.y.val.stride) x' y' c' →
      x = x' ∧ y = y' ∧ c = c' := by
    intro x y c x' y' c' h1 h2 h3 h1' h2' h3' e
    rw [oYaddr, oYaddr] at e
    exact sep.out_injective x y c x' y' c' ((rX x).1 h1) (rYo y ((rY y).1 h2)) ((rC c).1 h3)
      ((rX x').1 h1') (rYo y' ((rY y').1 h2')) ((rC c').1 h3') e
  have oYo : ∀ p, PixelOf outY (bo + (yo.min - out.y.val.min) * out.y.val.stride) p → PixelOf out bo p := by
    rintro p ⟨x, y, c, h1, h2, h3, rfl⟩
    exact ⟨x, y, c, (rX x).1 h1, rYo y ((rY y).1 h2), (rC c).1 h3, oYaddr x y c⟩
  obtain ⟨m7, e7, v7, f7⟩ := transposed_spec debug (a := outY) (b := outTr) oYi oYb ub oYp up
    (by rw [uy]; exact ⟨rfl, rfl⟩) (by rw [ux]; exact ⟨rfl, rfl⟩) (by rw [uc]; exact ⟨rfl, rfl⟩)
    (fun p h h' => (sep.temp yo 2 p (by omega) (uT p h')).2.1 (oYo p h)) m6
  refine ⟨m7, ?_, ?_, ?_⟩
  · unfold resampleStrip
    dsimp only
    rw [← houtY, ← hstrip, ← hstripTr, ← houtTr, ← hm1, e2]
    simp only [Option.bind_eq_bind, Option.bind_some]
    rw [← hm3, e4]
    simp only [Option.bind_some]
    rw [← hm5, e6]
    exact e7
  · intro x y c hx hy hc
    rw [← oYaddr, v7 x y c ((rX x).2 hx) ((rY y).2 hy) ((rC c).2 hc),
      v6 y x c ((urX y).2 hy) ((urY x).2 hx) ((urC c).2 hc)]
    unfold kernelSum
    refine List.foldl_ext _ _ _ fun s rx hrx => ?_
    have hrx : InInterval (kx.data x).dom rx := mem_ints.1 hrx
    have hrx := (hkx x hx).2.2 rx hrx
    congr 2
    beta_reduce
    have hP : PixelOf stripTr (buf yo 1) (pixelAddress stripTr (buf yo 1) y rx c) :=
      ⟨y, rx, c, (trX y).2 hy, (trY rx).2 hrx, (trC c).2 hc, rfl⟩
    have hQ : PixelOf strip (buf yo 0) (pixelAddress strip (buf yo 0) rx y c) :=
      ⟨rx, y, c, (srX rx).2 hrx, (srY y).2 hy, (srC c).2 hc, rfl⟩
    rw [f5 _ fun h => sep.temps yo 2 1 _ (by omega) (by omega) (by omega) (uT _ h) (tT _ hP),
      v4 y rx c ((trX y).2 hy) ((trY rx).2 hrx) ((trC c).2 hc),
      f3 _ fun h => sep.temps yo 1 0 _ (by omega) (by omega) (by omega) (tT _ h) (sT _ hQ),
      v2 rx y c ((srX rx).2 hrx) ((srY y).2 hy) ((srC c).2 hc)]
    unfold kernelSum
    refine List.foldl_ext _ _ _ fun s ry hry => ?_
    have hry : InInterval (ky.data y).dom ry := mem_ints.1 hry
    congr 2
    apply f1
    intro h
    exact (sep.temp yo 0 _ (by omega) (sT _ h)).1
      ⟨rx, ry, c, hrx, (hky y (rYo y hy)).2.2 ry hry, hcs c hc, rfl⟩
  · intro p hp ht
    rw [f7, f6 p fun h => ht 2 (by omega) (uT p h), old p ht]
    rintro ⟨x, y, c, h1, h2, h3, e⟩
    exact hp x y c ((rX x).1 h1) ((rY y).1 h2) ((rC c).1 h3) (e.trans (oYaddr x y c))

/-- All strips. -/
theorem resampleStrips_spec (o : FloatOps F) (debug : Bool) {in_ out : Image3} {bi bo : Int}
    {kx ky : Dense1 (Dense1 F)} {ax ay : Int → Int} {buf : Interval → Nat → Int}
    (hbi : in_.base = some bi) (hbo : out.base = some bo)
    (hin : ProperDim in_.x ∧ ProperDim in_.y ∧ ProperDim in_.c)
    (hout : ProperDim out.x ∧ ProperDim out.y ∧ ProperDim out.c)
    (hcs : ∀ c, inRangeOf out.c c → inRangeOf in_.c c)
    (hfit1 : 64 * in_.x.val.extent * out.c.val.extent ≤ 9223372036854775807)
    (hfit2 : 64 * out.x.val.extent * out.c.val.extent ≤ 9223372036854775807)
    (hkx : ∀ x, inRangeOf out.x x → InInterval kx.dom x ∧ 0 ≤ (kx.data x).dom.extent ∧
      ∀ r, InInterval (kx.data x).dom r → inRangeOf in_.x r)
    (hky : ∀ y, inRangeOf out.y y → InInterval ky.dom y ∧ 0 ≤ (ky.data y).dom.extent ∧
      ∀ r, InInterval (ky.data y).dom r → inRangeOf in_.y r)
    (sep : SeparateObjects in_ out bi bo kx ky ax ay buf) (l : List Interval) :
    ∀ (m : Mem F), (∀ yo ∈ l, yo.extent = 64 ∧ out.y.val.min ≤ yo.min ∧
        yo.min + 64 ≤ out.y.val.min + out.y.val.extent) →
    (∀ x r, KernelIndex kx x r → m (kernelAddress kx ax x r) = (kx.data x).data r) →
    (∀ x r, KernelIndex ky x r → m (kernelAddress ky ay x r) = (ky.data x).data r) →
    ∃ m', l.foldlM (resampleStrip o debug in_ out kx ky ax ay buf) m = some m' ∧
      (∀ x y c, inRangeOf out.x x → (∃ yo ∈ l, InInterval yo y) → inRangeOf out.c c →
        m' (pixelAddress out bo x y c) = kernelSum o (kx.data x) fun rx =>
          kernelSum o (ky.data y) fun ry => m (pixelAddress in_ bi rx ry c)) ∧
      ∀ p, (∀ x y c, inRangeOf out.x x → (∃ yo ∈ l, InInterval yo y) → inRangeOf out.c c →
          p ≠ pixelAddress out bo x y c) →
        (∀ yo ∈ l, ∀ n < 3, ¬ TempCell in_ out buf yo n p) → m' p = m p := by
  induction l with
  | nil => intro m _ _ _; exact ⟨m, rfl, by simp, fun _ _ _ => rfl⟩
  | cons yo l ih =>
    intro m hl hmx hmy
    obtain ⟨hy1, hy2, hy3⟩ := hl yo (by simp)
    have rYo : ∀ y, InInterval yo y → inRangeOf out.y y := by
      intro y; unfold inRangeOf InInterval; omega
    obtain ⟨m1, e1, v1, f1⟩ := resampleStrip_spec o debug ⟨hy1, hy2, hy3⟩ hbi hbo hin hout hcs hfit1 hfit2
      hkx hky sep m hmx hmy
    have fk : ∀ p, ¬ PixelOf out bo p → (∀ n < 3, ¬ TempCell in_ out buf yo n p) → m1 p = m p := by
      intro p hp ht
      exact f1 p (fun x y c hx hy hc e => hp ⟨x, y, c, hx, rYo y hy, hc, e⟩) ht
    obtain ⟨m2, e2, v2, f2⟩ := ih m1 (fun z hz => hl z (by simp [hz]))
      (by
        intro x r h
        rw [fk, hmx x r h]
        · exact fun hp => (sep.out_k _ hp).1 ⟨x, r, h, rfl⟩
        · exact fun n hn ht => (sep.temp yo n _ hn ht).2.2.1 ⟨x, r, h, rfl⟩)
      (by
        intro x r h
        rw [fk, hmy x r h]
        · exact fun hp => (sep.out_k _ hp).2 ⟨x, r, h, rfl⟩
        · exact fun n hn ht => (sep.temp yo n _ hn ht).2.2.2 ⟨x, r, h, rfl⟩)
    refine ⟨m2, ?_, ?_, ?_⟩
    · rw [List.foldlM_cons, e1]; exact e2
    · intro x y c hx hy hc
      by_cases hy' : ∃ yo ∈ l, InInterval yo y
      · obtain ⟨z, hz, hzy⟩ := hy'
        rw [v2 x y c hx ⟨z, hz, hzy⟩ hc]
        obtain ⟨hz1, hz2, hz3⟩ := hl z (by simp [hz])
        have hyo : inRangeOf out.y y := by
          unfold InInterval at hzy; unfold inRangeOf; omega
        unfold kernelSum
        refine List.foldl_ext _ _ _ fun s rx hrx => ?_
        have hrx : InInterval (kx.data x).dom rx := mem_ints.1 hrx
        congr 2
        refine List.foldl_ext _ _ _ fun s ry hry => ?_
        have hry : InInterval (ky.data y).dom ry := mem_ints.1 hry
        congr 2
        have hP : PixelOf in_ bi (pixelAddress in_ bi rx ry c) :=
          ⟨rx, ry, c, (hkx x hx).2.2 rx hrx, (hky y hyo).2.2 ry hry, hcs c hc, rfl⟩
        exact fk _ (sep.in_out _ hP) (fun n hn ht => (sep.temp yo n _ hn ht).1 hP)
      · have hyy : InInterval yo y := by
          obtain ⟨z, hz, hzy⟩ := hy
          rcases List.mem_cons.1 hz with rfl | hz
          · exact hzy
          · exact absurd ⟨z, hz, hzy⟩ hy'
        rw [f2, v1 x y c hx hyy hc]
        · rintro x' y' c' hx' ⟨z, hz, hzy⟩ hc' e
          obtain ⟨hz1, hz2, hz3⟩ := hl z (by simp [hz])
          have := sep.out_injective x y c x' y' c' hx (rYo y hyy) hc hx'
            (by unfold InInterval at hzy; unfold inRangeOf; omega) hc' e
          exact hy' ⟨z, hz, this.2.1 ▸ hzy⟩
        · intro z hz n hn ht
          exact (sep.temp z n _ hn ht).2.1 ⟨x, y, c, hx, rYo y hyy, hc, rfl⟩
    · intro p hp ht
      rw [f2 p (fun x y c hx hy hc => hp x y c hx (by
          obtain ⟨z, hz, hzy⟩ := hy; exact ⟨z, by simp [hz], hzy⟩) hc)
          (fun z hz => ht z (by simp [hz])),
        f1 p (fun x y c hx hy hc => hp x y c hx ⟨yo, by simp, hy⟩ hc) (ht yo (by simp))]

end Nda
