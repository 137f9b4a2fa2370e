import Verif.Image.LemmasOps
import Verif.Image.LemmasHalf
/-!
# Images in memory — properties (C76)
-/
namespace Verif.Image

/-- Memory for the examples: a thousand bytes from address 0. -/
def demoMem : Mem := fun a => if 0 ≤ a ∧ a < 1000 then some (UInt8.ofNat (a.toNat % 100)) else none

/-- Two by three pixels of four bytes, rows of twelve bytes. -/
def demoSrc : Img := mkImg 100 12 2 3 .rgba

/-- The same size elsewhere, stored from the bottom. -/
def demoDst : Img := mkImg 300 (-8) 2 3 .rgba

theorem demo_usable {im : Img} {lo : Int} (h1 : im.bytespp = im.fmt.bpp) (h2 : 0 < im.width)
    (h3 : 0 ≤ im.height)
    (h4 : im.width * im.bytespp ≤ im.stride.natAbs) (h5 : im.height * (im.stride.natAbs : Int) < 2147483648)
    (h6 : im.width * (im.bytespp : Int) < 2147483648)
    (h7 : ∀ x y k, Inside im x y k → lo ≤ At im x y k ∧ At im x y k < lo + 100) (h8 : 0 ≤ lo ∧ lo < 900) :
    Usable demoMem im :=
  ⟨h1, h2, h3, h4, h5, h6, fun a ⟨x, y, k, hi, e⟩ => by
    have := h7 x y k hi
    unfold demoMem
    rw [if_pos (by omega)]
    simp⟩

theorem demoSrc_usable : Usable demoMem demoSrc :=
  demo_usable (lo := 100) rfl (by decide) (by decide) (by decide) (by decide) (by decide)
    (fun x y k h => by unfold Inside at h; unfold At; simp [demoSrc, mkImg, Format.bpp] at h ⊢; omega) (by omega)

theorem demoDst_usable : Usable demoMem demoDst :=
  demo_usable (lo := 250) rfl (by decide) (by decide) (by decide) (by decide) (by decide)
    (fun x y k h => by unfold Inside at h; unfold At; simp [demoDst, mkImg, Format.bpp] at h ⊢; omega) (by omega)

theorem demo_apart : Apart demoDst demoSrc := by
  rintro a ⟨x, y, k, h, e⟩ ⟨x', y', k', h', e'⟩
  unfold Inside at h h'
  unfold At at e e'
  simp [demoDst, demoSrc, mkImg, Format.bpp] at h h' e e'
  omega

/-! ## Pixels -/

/-- **C76.** Every pixel of an image has its own bytes, and asking for a pixel gives its address, or fails an
assertion when there is no such pixel. -/
theorem C76_pixels {m : Mem} {im : Img} (u : Usable m im) :
    (∀ x y, 0 < im.bytespp → (getPixel im x y = some (At im x y 0) ↔ Inside im x y 0)) ∧
    (∀ x y, getPixel im x y ≠ none → 0 ≤ x ∧ x < im.width ∧ 0 ≤ y ∧ y < im.height) ∧
    ∀ x y k x' y' k', Inside im x y k → Inside im x' y' k' → At im x y k = At im x' y' k' →
      x = x' ∧ y = y' ∧ k = k' := by
  have hg : ∀ x y, getPixel im x y ≠ none → 0 ≤ x ∧ x < im.width ∧ 0 ≤ y ∧ y < im.height := by
    intro x y h
    unfold getPixel at h
    split at h
    · rename_i hr
      unfold inRect at hr
      simp at hr
      omega
    · exact absurd rfl h
  refine ⟨fun x y hb => ⟨fun h => ?_, fun h => ?_⟩, hg, fun x y k x' y' k' h h' e => at_inj u.apart h h' e⟩
  · have := hg x y (by rw [h]; simp)
    exact ⟨this.1, this.2.1, this.2.2.1, this.2.2.2, by omega, by omega⟩
  · exact getPixel_eq u h.1 h.2.1 h.2.2.1 h.2.2.2.1

example : getPixel demoDst 1 2 = some 288 := by decide
example : getPixel demoDst 2 0 = none := by decide
example : Inside demoDst 1 2 0 := by unfold Inside; decide

/-- **C76.** A part of an image shows the pixels of the image: the same bytes, not copies. -/
theorem C76_crop {m : Mem} {im : Img} (u : Usable m im) {r : IRect} (h0 : 0 ≤ r.minx) (h1 : 0 ≤ r.miny)
    (h2 : r.minx < r.maxx) (h3 : r.miny < r.maxy) (h4 : r.maxx ≤ im.width) (h5 : r.maxy ≤ im.height)
    (h6 : im.width < 2147483648 ∧ im.height < 2147483648) :
    ∃ c, crop im r = some c ∧ c.width = r.maxx - r.minx ∧ c.height = r.maxy - r.miny ∧ c.fmt = im.fmt ∧
      Usable m c ∧ ∀ x y k, Inside c x y k →
        Inside im (x + r.minx) (y + r.miny) k ∧ At c x y k = At im (x + r.minx) (y + r.miny) k := by
  have e1 := natAbs_small h1 (show r.miny < im.height by omega) u.small
  have e2 : 0 ≤ r.minx * (im.bytespp : Int) := Int.mul_nonneg h0 (by omega)
  have e3 : r.minx * (im.bytespp : Int) ≤ im.width * im.bytespp :=
    Int.mul_le_mul_of_nonneg_right (by omega) (by omega)
  have e4 := u.fits
  have hc : crop im r = some (mkImg (im.data + r.miny * im.stride + r.minx * im.bytespp) im.stride
      (r.maxx - r.minx) (r.maxy - r.miny) im.fmt) := by
    unfold crop s32
    rw [if_pos ⟨h0, h1, h4, h5⟩, if_pos e1, if_pos (by omega), if_pos (by omega), if_pos (by omega)]
    rfl
  have hin : ∀ x y k, Inside (mkImg (im.data + r.miny * im.stride + r.minx * im.bytespp) im.stride
      (r.maxx - r.minx) (r.maxy - r.miny) im.fmt) x y k →
        Inside im (x + r.minx) (y + r.miny) k ∧
        At (mkImg (im.data + r.miny * im.stride + r.minx * im.bytespp) im.stride
      (r.maxx - r.minx) (r.maxy - r.miny) im.fmt) x y k = At im (x + r.minx) (y + r.miny) k := by
    intro x y k h
    unfold Inside mkImg at h
    dsimp only at h
    rw [← u.bpp] at h
    refine ⟨⟨by omega, by omega, by omega, by omega, by omega, by omega⟩, ?_⟩
    unfold At mkImg
    dsimp only
    rw [← u.bpp, Int.add_mul, Int.add_mul]
    omega
  refine ⟨_, hc, rfl, rfl, rfl, ⟨rfl, ?_, ?_, ?_, ?_, ?_, ?_⟩, hin⟩
  · show 0 < r.maxx - r.minx; omega
  · show 0 ≤ r.maxy - r.miny; omega
  · show (r.maxx - r.minx) * (im.fmt.bpp : Int) ≤ _
    rw [← u.bpp]
    exact Int.le_trans (Int.mul_le_mul_of_nonneg_right (by omega) (by omega)) u.apart
  · show (r.maxy - r.miny) * _ < _
    exact Int.lt_of_le_of_lt (Int.mul_le_mul_of_nonneg_right (by omega) (by omega)) u.small
  · show (r.maxx - r.minx) * (im.fmt.bpp : Int) < _
    rw [← u.bpp]
    exact Int.lt_of_le_of_lt (Int.mul_le_mul_of_nonneg_right (by omega) (by omega)) u.fits
  · rintro a ⟨x, y, k, h, rfl⟩
    obtain ⟨h7, h8⟩ := hin x y k h
    rw [h8]
    exact u.mapped _ ⟨_, _, _, h7, rfl⟩

example : crop demoSrc ⟨1, 1, 2, 3⟩ = some (mkImg 116 12 1 2 .rgba) := by decide

/-- **C76.** A part of a part is a part. -/
theorem C76_crop_crop {im c d : Img} (hb : im.bytespp = im.fmt.bpp) {r s : IRect} (h1 : crop im r = some c)
    (h2 : crop c s = some d) (h3 : crop im ⟨s.minx + r.minx, s.miny + r.miny, s.maxx + r.minx, s.maxy + r.miny⟩ ≠ none) :
    crop im ⟨s.minx + r.minx, s.miny + r.miny, s.maxx + r.minx, s.maxy + r.miny⟩ = some d := by
  have key : ∀ {im : Img} {r : IRect} {c : Img}, crop im r = some c →
      c = mkImg (im.data + r.miny * im.stride + r.minx * im.bytespp) im.stride (r.maxx - r.minx)
        (r.maxy - r.miny) im.fmt := by
    intro im r c h
    unfold crop s32 at h
    by_cases h1 : 0 ≤ r.minx ∧ 0 ≤ r.miny ∧ r.maxx ≤ im.width ∧ r.maxy ≤ im.height
    · rw [if_pos h1] at h
      by_cases a : -2147483648 ≤ r.miny * im.stride ∧ r.miny * im.stride < 2147483648
      · rw [if_pos a] at h
        by_cases b : -2147483648 ≤ r.minx * (im.bytespp : Int) ∧ r.minx * (im.bytespp : Int) < 2147483648
        · rw [if_pos b] at h
          by_cases c : -2147483648 ≤ r.maxx - r.minx ∧ r.maxx - r.minx < 2147483648
          · rw [if_pos c] at h
            by_cases d : -2147483648 ≤ r.maxy - r.miny ∧ r.maxy - r.miny < 2147483648
            · rw [if_pos d] at h
              injection h with h
              exact h.symm
            · rw [if_neg d] at h; cases h
          · rw [if_neg c] at h; cases h
        · rw [if_neg b] at h; cases h
      · rw [if_neg a] at h; cases h
    · rw [if_neg h1] at h; cases h
  have e1 := key h1
  have e2 := key h2
  cases e3 : crop im ⟨s.minx + r.minx, s.miny + r.miny, s.maxx + r.minx, s.maxy + r.miny⟩ with
  | none => exact absurd e3 h3
  | some d' =>
    have e4 := key e3
    subst e1 e2 e4
    congr 1
    unfold mkImg
    dsimp only
    congr 1
    · rw [hb, Int.add_mul, Int.add_mul]; omega
    · omega
    · omega

example : (crop demoSrc ⟨0, 1, 2, 3⟩).bind (fun c => crop c ⟨1, 0, 2, 1⟩) = crop demoSrc ⟨1, 1, 2, 2⟩ := by decide

/-! ## Copies -/

/-- **C76.** The copy of an image has the same size, format and pixels, in memory of its own; no other memory
changes. -/
theorem C76_copy {m : Mem} {im : Img} (u : Usable m im) {a : Int} {junk : Int → Byte}
    (hfree : ∀ j, a ≤ j → j < a + im.width * im.bytespp * im.height → m j = none) :
    ∃ m' c, copy m a junk im = some (m', c) ∧ c.width = im.width ∧ c.height = im.height ∧ c.fmt = im.fmt ∧
      Usable m' c ∧ Apart c im ∧
      (∀ x y k, Inside im x y k → m' (At c x y k) = m (At im x y k)) ∧
      ∀ j, ¬ (a ≤ j ∧ j < a + im.width * im.bytespp * im.height) → m' j = m j := by
  obtain ⟨n, hn, hs⟩ := row_len u
  have hst : s32 (im.width * (im.fmt.bpp : Int)) = some (n : Int) := by rw [Int.mul_comm]; exact hs
  have hle : im.width * (im.bytespp : Int) * im.height < 2147483648 := by
    have : im.height * (im.width * (im.bytespp : Int)) ≤ im.height * (im.stride.natAbs : Int) :=
      Int.mul_le_mul_of_nonneg_left u.apart u.tall
    rw [Int.mul_comm] at this
    have := u.small
    omega
  have hge : 0 ≤ im.width * (im.bytespp : Int) * im.height :=
    Int.mul_nonneg (Int.mul_nonneg (by have := u.wide; omega) (by omega)) u.tall
  have hsz : s32 ((n : Int) * im.height) = some (im.width * im.bytespp * im.height) := by
    unfold s32; rw [hn, if_pos (by omega)]
  let m1 : Mem := fun j => if a ≤ j ∧ j < a + im.width * im.bytespp * im.height then some (junk j) else m j
  let c : Img := mkImg a n im.width im.height im.fmt
  have hal : alloc m a junk im.width im.height im.fmt = some (m1, c) := by
    unfold alloc; rw [hst]; simp only [bind, Option.bind, hsz, pure]; rfl
  have hcb : c.bytespp = im.bytespp := u.bpp.symm
  have hreg : ∀ b, Owns c b ↔ a ≤ b ∧ b < a + im.width * im.bytespp * im.height := by
    intro b
    constructor
    · rintro ⟨x, y, k, ⟨h1, h2, h3, h4, h5, h6⟩, e⟩
      rw [hcb] at h6
      have c1 := col_lt h1 (show x < im.width from h2) h5 h6
      have c2 := col_lt (x := y) (w := im.height) (k := x * im.bytespp + k) (z := im.width * im.bytespp)
        h3 h4 c1.1 c1.2
      rw [Int.mul_comm im.height] at c2
      have e' : b = a + y * (n : Int) + x * (im.bytespp : Int) + k := by rw [e, ← hcb]; rfl
      rw [hn] at e'
      omega
    · rintro ⟨h1, h2⟩
      have hpos : 0 < im.width * (im.bytespp : Int) := by
        rcases Int.lt_or_eq_of_le (Int.mul_nonneg (Int.le_of_lt u.wide) (Int.natCast_nonneg im.bytespp)) with h | h
        · exact h
        · rw [← h] at h2; simp at h2; omega
      have e1 := Int.ediv_mul_add_emod (b - a) (im.width * im.bytespp)
      have e2 := Int.emod_nonneg (b - a) (Int.ne_of_gt hpos)
      have e3 := Int.emod_lt_of_pos (b - a) hpos
      have e4 : (b - a) / (im.width * im.bytespp) < im.height :=
        Int.ediv_lt_of_lt_mul hpos (by rw [Int.mul_comm]; omega)
      have e5 : 0 ≤ (b - a) / (im.width * im.bytespp) := Int.ediv_nonneg (by omega) (by omega)
      obtain ⟨x, k, hin, e6⟩ := row_byte (im := im) e5 e4 e2 e3
      refine ⟨x, _, k, ⟨hin.1, hin.2.1, hin.2.2.1, hin.2.2.2.1, hin.2.2.2.2.1, by rw [hcb]; exact hin.2.2.2.2.2⟩, ?_⟩
      unfold At
      rw [hcb]
      show b = a + _ * (n : Int) + _ + _
      rw [hn]
      omega
  have uc : Usable m1 c := by
    refine ⟨rfl, u.wide, u.tall, ?_, ?_, ?_, fun b hb => ?_⟩
    · rw [hcb]; show im.width * (im.bytespp : Int) ≤ (((n : Int).natAbs : Nat) : Int); omega
    · show im.height * (((n : Int).natAbs : Nat) : Int) < _
      rw [Int.natAbs_natCast, hn, Int.mul_comm]; exact hle
    · rw [hcb]; exact u.fits
    · show (if _ then _ else _) ≠ _
      rw [if_pos ((hreg b).1 hb)]; simp
  have hap : Apart c im := by
    intro b h1 h2
    have h3 := (hreg b).1 h1
    exact u.mapped b h2 (hfree b h3.1 h3.2)
  have hm1 : ∀ b, Owns im b → m1 b = m b := by
    intro b hb
    show (if _ then _ else _) = _
    rw [if_neg (fun h => hap b ((hreg b).2 h) hb)]
  have us : Usable m1 im := ⟨u.bpp, u.wide, u.tall, u.apart, u.small, u.fits, fun b hb => by
    rw [hm1 b hb]; exact u.mapped b hb⟩
  obtain ⟨m2, h1, h2⟩ := rows_draw (m0 := m1) (im := c) (v := fun x y k => m1 (At im x y k))
    (f := fun y m => do
      let d ← getPixel c 0 y
      let s ← getPixel im 0 y
      memcpy m d s (n : Int).toNat) uc.apart (fun y hy hh m' hi => by
        have g1 : getPixel c 0 y = some (At c 0 y 0) := getPixel_eq uc (by omega) u.wide hy hh
        have g2 : getPixel im 0 y = some (At im 0 y 0) := getPixel_eq u (by omega) u.wide hy hh
        simp only [g1, g2, bind, Option.bind, Int.toNat_natCast]
        exact copy_row uc us hap hcb rfl hy hh hy hh (fun x k h => rfl) (by rw [hcb]; exact hn) hi)
  refine ⟨m2, c, ?_, rfl, rfl, rfl, ?_, hap, ?_, ?_⟩
  · unfold copy
    rw [hal]
    show Option.bind (s32 (im.fmt.bpp * im.width)) _ = _
    rw [hs]
    exact congrArg (fun o => Option.bind o (fun m2 => some (m2, c))) h1
  · refine ⟨uc.bpp, uc.wide, uc.tall, uc.apart, uc.small, uc.fits, ?_⟩
    rintro b ⟨x, y, k, hin, rfl⟩
    rw [h2.1 x y k hin]
    dsimp only
    rw [hm1 _ ⟨x, y, k, by rw [Inside, ← hcb]; exact hin, rfl⟩]
    exact u.mapped _ ⟨x, y, k, by rw [Inside, ← hcb]; exact hin, rfl⟩
  · intro x y k hin
    rw [h2.1 x y k (by rw [Inside, hcb]; exact hin)]
    exact hm1 _ ⟨x, y, k, hin, rfl⟩
  · intro j hj
    rw [h2.2 j (fun h => hj ((hreg j).1 h))]
    show (if _ then _ else _) = _
    rw [if_neg hj]

example : ∀ j, (2000 : Int) ≤ j → j < 2000 + demoSrc.width * demoSrc.bytespp * demoSrc.height →
    demoMem j = none := by
  intro j h1 h2
  unfold demoMem
  rw [if_neg (by omega)]

/-- **C76, what fails.** An image without columns cannot be copied or flipped: asking for the first pixel of
a row fails an assertion. -/
theorem C76_copy_empty_asserts {m : Mem} {a : Int} {junk : Int → Byte} {im : Img} (hw : im.width = 0)
    (hh : 0 < im.height) : copy m a junk im = none ∧ verticalFlip m im im = none := by
  have hg : ∀ c : Img, c.width = 0 → ∀ y, getPixel c 0 y = none := by
    intro c hc y
    unfold getPixel inRect
    rw [hc]
    simp
  obtain ⟨n, hn⟩ : ∃ n, im.height.toNat = n + 1 := ⟨im.height.toNat - 1, by omega⟩
  constructor
  · have h0 : s32 0 = some 0 := by unfold s32; rw [if_pos (by omega)]
    obtain ⟨m1, c, hal, hc⟩ : ∃ m1 c, alloc m a junk im.width im.height im.fmt = some (m1, c) ∧ c.width = 0 := by
      unfold alloc
      rw [hw, Int.zero_mul, h0]
      show ∃ (m1 : Mem) (c : Img), Option.bind (s32 (0 * im.height)) _ = some (m1, c) ∧ c.width = 0
      rw [Int.zero_mul, h0]
      exact ⟨_, _, rfl, rfl⟩
    unfold copy
    rw [hal]
    show Option.bind (s32 (im.fmt.bpp * im.width)) _ = none
    rw [hw, Int.mul_zero, h0]
    show Option.bind (forRows _ im.height.toNat 0 m1) _ = none
    rw [hn, forRows, hg c hc]
    rfl
  · unfold verticalFlip
    rw [if_pos ⟨rfl, rfl, rfl⟩, hn, forRows]
    simp only [bind, Option.bind, hg im hw]

example : copy demoMem 2000 (fun _ => 0) (mkImg 0 0 0 1 .byte) = none :=
  (C76_copy_empty_asserts rfl (by decide)).1

/-- **C76.** Turning an image upside down into another. -/
theorem C76_flip_partial {m : Mem} {dst src : Img} (ud : Usable m dst) (us : Usable m src) (ha : Apart dst src)
    (hf : dst.fmt = src.fmt) (hw : dst.width = src.width) (hh : dst.height = src.height) :
    ∃ m', verticalFlip m dst src = some m' ∧
      Draws dst (fun x y k => m (At src x (dst.height - 1 - y) k)) m m' := by
  have hb : dst.bytespp = src.bytespp := by rw [ud.bpp, us.bpp, hf]
  obtain ⟨n, hn, hs⟩ := row_len ud
  obtain ⟨m', h1, h2⟩ := rows_draw (m0 := m) (im := dst) (v := fun x y k => m (At src x (dst.height - 1 - y) k))
    (f := fun y m => do
      let d ← getPixel dst 0 y
      let s ← getPixel src 0 (dst.height - 1 - y)
      let n ← s32 (dst.fmt.bpp * dst.width)
      memcpy m d s n.toNat) ud.apart (fun y hy hy' m' hi => by
        have g1 : getPixel dst 0 y = some (At dst 0 y 0) := getPixel_eq ud (by omega) ud.wide hy hy'
        have g2 : getPixel src 0 (dst.height - 1 - y) = some (At src 0 (dst.height - 1 - y) 0) :=
          getPixel_eq us (by omega) us.wide (by omega) (by omega)
        simp only [g1, g2, hs, bind, Option.bind, Int.toNat_natCast]
        exact copy_row ud us ha hb hw hy hy' (by omega) (by omega) (fun x k h => rfl) hn hi)
  refine ⟨m', ?_, h2⟩
  unfold verticalFlip
  rw [if_pos ⟨hf, hw.symm, hh.symm⟩]
  exact h1

example : ∃ m', verticalFlip demoMem demoDst demoSrc = some m' ∧
    m' (At demoDst 1 0 3) = demoMem (At demoSrc 1 2 3) := by
  obtain ⟨m', h1, h2, _⟩ := C76_flip_partial demoDst_usable demoSrc_usable demo_apart rfl rfl rfl
  exact ⟨m', h1, h2 1 0 3 (by unfold Inside; decide)⟩

/-- **C76, what fails.** Turning an image upside down in place does not turn it upside down: with two rows,
the second one is lost. -/
theorem C76_flip_in_place_wrong :
    ∃ m', verticalFlip demoMem (mkImg 0 2 1 2 .byte) (mkImg 0 2 1 2 .byte) = some m' ∧
      Usable demoMem (mkImg 0 2 1 2 .byte) ∧
      demoMem 0 = some 0 ∧ demoMem 2 = some 2 ∧ m' 0 = some 2 ∧ m' 2 = some 2 := by
  refine ⟨_, rfl, ?_, by decide, by decide, by decide, by decide⟩
  exact demo_usable (lo := 0) rfl (by decide) (by decide) (by decide) (by decide) (by decide)
    (fun x y k h => by unfold Inside at h; unfold At; simp [mkImg, Format.bpp] at h ⊢; omega) (by omega)

/-- **C76.** Turning upside down twice gives the image again. -/
theorem C76_flip_twice {m : Mem} {a b c : Img} (ua : Usable m a) (ub : Usable m b) (uc : Usable m c)
    (hab : Apart b a) (hbc : Apart c b) (hf : b.fmt = a.fmt ∧ c.fmt = a.fmt)
    (hw : b.width = a.width ∧ c.width = a.width) (hh : b.height = a.height ∧ c.height = a.height) :
    ∃ m1 m2, verticalFlip m b a = some m1 ∧ verticalFlip m1 c b = some m2 ∧
      ∀ x y k, Inside a x y k → m2 (At c x y k) = m (At a x y k) := by
  obtain ⟨m1, h1, d1⟩ := C76_flip_partial ub ua hab hf.1 hw.1 hh.1
  have hmap : ∀ j, m j ≠ none → m1 j ≠ none := by
    intro j hj
    by_cases ho : Owns b j
    · obtain ⟨x, y, k, hi, rfl⟩ := ho
      rw [d1.1 x y k hi]
      obtain ⟨i1, i2, i3, i4, i5, i6⟩ := hi
      rw [ub.bpp, hf.1, ← ua.bpp] at i6
      exact ua.mapped _ ⟨x, _, k, ⟨i1, by omega, by omega, by omega, i5, i6⟩, rfl⟩
    · rw [d1.2 j ho]; exact hj
  have up : ∀ im, Usable m im → Usable m1 im := fun im u =>
    ⟨u.bpp, u.wide, u.tall, u.apart, u.small, u.fits, fun j hj => hmap j (u.mapped j hj)⟩
  obtain ⟨m2, h2, d2⟩ := C76_flip_partial (up c uc) (up b ub) hbc (hf.2.trans hf.1.symm)
    (hw.2.trans hw.1.symm) (hh.2.trans hh.1.symm)
  refine ⟨m1, m2, h1, h2, fun x y k hi => ?_⟩
  obtain ⟨i1, i2, i3, i4, i5, i6⟩ := hi
  have kb : k < (b.bytespp : Int) := by rw [ub.bpp, hf.1, ← ua.bpp]; exact i6
  have kc : k < (c.bytespp : Int) := by rw [uc.bpp, hf.2, ← ua.bpp]; exact i6
  rw [d2.1 x y k ⟨i1, by omega, i3, by omega, i5, kc⟩]
  dsimp only
  rw [d1.1 x _ k ⟨i1, by omega, by omega, by omega, i5, kb⟩]
  dsimp only
  congr 2
  omega

example : ∃ m1 m2, verticalFlip demoMem demoDst demoSrc = some m1 ∧ verticalFlip m1 demoSrc demoDst = some m2 ∧
    m2 (At demoSrc 1 2 3) = demoMem (At demoSrc 1 2 3) := by
  obtain ⟨m1, m2, h1, h2, h3⟩ := C76_flip_twice demoSrc_usable demoDst_usable demoSrc_usable demo_apart
    (fun x h h' => demo_apart x h' h) ⟨rfl, rfl⟩ ⟨rfl, rfl⟩ ⟨rfl, rfl⟩
  exact ⟨m1, m2, h1, h2, h3 1 2 3 (by unfold Inside; decide)⟩

/-- **C76.** Copying pixels of four bytes from one image to another. -/
theorem C76_copy32 {m : Mem} {dst src : Img} (ud : Usable m dst) (us : Usable m src) (ha : Apart dst src)
    (hd : dst.bytespp = 4) (hs : src.bytespp = 4) (hw : dst.width = src.width) (hh : dst.height = src.height) :
    ∃ m', copy32Bit m dst src = some m' ∧ Draws dst (fun x y k => m (At src x y k)) m m' := by
  obtain ⟨m', h1, h2⟩ := rows_draw (m0 := m) (im := dst) (v := fun x y k => m (At src x y k))
    (f := fun y m => do
      let d ← getPixel dst 0 y
      let s ← getPixel src 0 y
      copyWords dst.width.toNat d s m) ud.apart (fun y hy hy' m' hi => by
        have g1 : getPixel dst 0 y = some (At dst 0 y 0) := getPixel_eq ud (by omega) ud.wide hy hy'
        have g2 : getPixel src 0 y = some (At src 0 y 0) := getPixel_eq us (by omega) us.wide hy (by omega)
        simp only [g1, g2, bind, Option.bind]
        have e := copyWords_eq (d := At dst 0 y 0) (s := At src 0 y 0) dst.width.toNat 0 m'
        simp only [Int.zero_mul, Int.add_zero] at e
        rw [e]
        have hwide := ud.wide
        refine units_row (z := 4) (by omega) hy hy' (by rw [hd]; omega) hi (fun j hj hj' m2 hi2 => ?_)
        have hin : ∀ i : Nat, i < 4 → Inside src j y i := fun i h =>
          ⟨hj, by omega, hy, by omega, by omega, by rw [hs]; omega⟩
        have ea : ∀ i : Nat, At src 0 y 0 + j * 4 + i = At src j y i := fun i => by
          unfold At; rw [hs]; simp
        obtain ⟨l, l1, l2, l3⟩ := load_some (m := m2) 4 (At src 0 y 0 + j * 4) (fun i h => by
          rw [ea i]; exact hi2.mapped us _ ⟨j, y, i, hin i h, rfl⟩)
        have ed : At dst 0 y 0 + j * 4 = At dst j y 0 := by unfold At; rw [hd]; simp
        obtain ⟨m3, s1, s2⟩ := store_pixel (v := fun x y k => m (At src x y k)) ud (x := j) (y := y) hj (by omega)
          hy hy' (l := l) (q := 0) (by omega) (by rw [l2, hd]; omega)
          (fun i h => by
            rw [l3 i (by omega), ea i, Int.zero_add]
            exact (hi2.1 _ (fun ho => ha _ ho ⟨j, y, i, hin i (by omega), rfl⟩)).symm) hi2
        refine ⟨m3, by rw [l1, ed]; exact s1, ?_⟩
        rw [l2, ← ed] at s2
        exact s2)
  refine ⟨m', ?_, h2⟩
  unfold copy32Bit
  rw [if_pos ⟨hd, hs, hw, hh⟩]
  exact h1

example : ∃ m', copy32Bit demoMem demoDst demoSrc = some m' ∧
    m' (At demoDst 1 2 3) = demoMem (At demoSrc 1 2 3) := by
  obtain ⟨m', h1, h2, _⟩ := C76_copy32 demoDst_usable demoSrc_usable demo_apart rfl rfl rfl rfl
  exact ⟨m', h1, h2 1 2 3 (by unfold Inside; decide)⟩

/-! ## One value everywhere -/

/-- A loop over the rows from the top. -/
theorem clear_rows {m : Mem} {im : Img} (u : Usable m im) (hs : 0 < im.stride) {l : List Byte}
    (hl : l.length = im.bytespp) (hp : 0 < im.bytespp) :
    ∃ m', clearWith m im l = some m' ∧ Draws im (fun _ _ k => l[k.toNat]?) m m' := by
  have hwide := u.wide
  have ht := u.tall
  obtain ⟨m', h1, h2⟩ := rows_draw (m0 := m) (im := im) (v := fun _ _ k => l[k.toNat]?)
    (f := fun y m => fill l im.width.toNat (im.data + y * im.stride) m) u.apart (fun y hy hy' m' hi => by
      have e0 : im.data + y * im.stride = At im 0 y 0 := by unfold At; simp
      have e := fill_eq (v := l) (a := im.data + y * im.stride) im.width.toNat 0 m'
      simp only [Int.zero_mul, Int.add_zero] at e
      rw [e, e0]
      refine units_row (z := l.length) (by omega) hy hy' ?_ hi (fun j hj hj' m2 hi2 => ?_)
      · rw [hl]; congr 1; omega
      have ed : At im 0 y 0 + j * l.length = At im j y 0 := by unfold At; rw [hl]; simp
      obtain ⟨m3, s1, s2⟩ := store_pixel (v := fun _ _ k => l[k.toNat]?) u (x := j) (y := y) hj (by omega)
        hy hy' (l := l) (q := 0) (by omega) (by omega)
        (fun i h => by simp) hi2
      rw [ed]
      exact ⟨m3, s1, s2⟩)
  refine ⟨m', ?_, h2⟩
  have hb : s32 (im.height * im.stride) = some (im.height * im.stride) := by
    have := u.small
    have h3 : (im.stride.natAbs : Int) = im.stride := by omega
    rw [h3] at this
    have : 0 ≤ im.height * im.stride := Int.mul_nonneg ht (by omega)
    unfold s32
    rw [if_pos (by omega)]
  unfold clearWith
  rw [hb]
  have := rowLoop_eq (f := fun row m => fill l im.width.toNat row m) (data := im.data) (h := im.height) hs
    im.height.toNat 0 m (by omega)
  simp only [Int.zero_mul, Int.add_zero] at this
  exact this.trans h1

/-- **C76.** Clearing an image whose rows are stored from the top gives every pixel the value, and changes
nothing else. -/
theorem C76_clear_partial {m : Mem} {im : Img} (u : Usable m im) (hs : 0 < im.stride) :
    (∀ v, im.bytespp = 4 → ∃ m', clear32 m im v = some m' ∧
      Draws im (fun _ _ k => (bytes4 v)[k.toNat]?) m m') ∧
    (∀ v, im.fmt = .float → ∃ m', clearFloat m im v = some m' ∧
      Draws im (fun _ _ k => (bytes4 v)[k.toNat]?) m m') ∧
    ∀ x y z w, im.fmt = .float4 → ∃ m', clearFloat4 m im x y z w = some m' ∧
      Draws im (fun _ _ k => (bytes4 x ++ bytes4 y ++ bytes4 z ++ bytes4 w)[k.toNat]?) m m' := by
  refine ⟨fun v h => ?_, fun v h => ?_, fun x y z w h => ?_⟩
  · unfold clear32
    rw [if_pos h]
    exact clear_rows u hs h.symm (by omega)
  · have hb : im.bytespp = 4 := by rw [u.bpp, h]; rfl
    unfold clearFloat
    rw [if_pos ⟨h, hb⟩]
    exact clear_rows u hs hb.symm (by omega)
  · have hb : im.bytespp = 16 := by rw [u.bpp, h]; rfl
    unfold clearFloat4
    rw [if_pos ⟨h, hb⟩]
    exact clear_rows u hs hb.symm (by omega)

example : ∃ m', clear32 demoMem demoSrc 0xff8040ff = some m' ∧ m' (At demoSrc 1 2 1) = some 0x40 ∧
    m' (At demoSrc 1 2 3 + 1) = demoMem (At demoSrc 1 2 3 + 1) := by
  obtain ⟨m', h1, h2, h3⟩ := (C76_clear_partial demoSrc_usable (by decide)).1 0xff8040ff rfl
  refine ⟨m', h1, h2 1 2 1 (by unfold Inside; decide), h3 _ ?_⟩
  rintro ⟨x, y, k, h, e⟩
  unfold Inside at h
  unfold At at e
  simp [demoSrc, mkImg, Format.bpp] at h e
  omega

/-- **C76, what fails.** Clearing an image whose rows are stored from the bottom does nothing. -/
theorem C76_clear_bottom_up_does_nothing {m : Mem} {im : Img} (u : Usable m im) (hs : im.stride < 0) (v : UInt32)
    (h4 : im.bytespp = 4) : clear32 m im v = some m := by
  have ht := u.tall
  have h1 : im.height * im.stride ≤ 0 := Int.mul_nonpos_of_nonneg_of_nonpos ht (by omega)
  have h2 : ((im.height * im.stride).natAbs : Int) = im.height * im.stride.natAbs := by
    rw [Int.natAbs_mul, Int.natCast_mul]; congr 1; omega
  have h3 := u.small
  unfold clear32 clearWith s32
  rw [if_pos h4, if_pos (by omega)]
  show rowLoop _ _ _ _ _ = _
  rw [rowLoop, if_neg (by omega)]

example : clear32 demoMem demoDst 7 = some demoMem :=
  C76_clear_bottom_up_does_nothing demoDst_usable (by decide) 7 rfl

/-! ## Conversions -/

/-- Byte `k` of the 16-bit numbers made from the 32-bit numbers of a pixel. -/
def converted (m : Mem) (src : Img) (x y k : Int) : Option Byte :=
  (word m (At src x y (4 * (k / 2)))).bind fun w => (bytes2 (toHalf w))[(k % 2).toNat]?

theorem convOne_eff {m0 m : Mem} {dst src : Img} (ud : Usable m0 dst) (us : Usable m0 src) (ha : Apart dst src)
    {x y q : Int} (hx : 0 ≤ x) (hw : x < dst.width) (hw' : x < src.width) (hy : 0 ≤ y) (hh : y < dst.height)
    (hh' : y < src.height) (hq : 0 ≤ q) (hd : 2 * q + 2 ≤ dst.bytespp) (hs : 4 * q + 4 ≤ src.bytespp)
    (hi : Inv (Owns dst) m0 m) :
    ∃ m', convOne (At dst x y (2 * q)) (At src x y (4 * q)) m = some m' ∧
      Eff (fun b => At dst x y (2 * q) ≤ b ∧ b < At dst x y (2 * q) + 2) (Want dst (converted m0 src)) m m' := by
  have hin : ∀ i : Nat, i < 4 → Owns src (At src x y (4 * q) + i) := fun i h =>
    ⟨x, y, 4 * q + i, ⟨hx, hw', hy, hh', by omega, by omega⟩, by unfold At; omega⟩
  obtain ⟨w, hw0⟩ := word_some (m := m) (a := At src x y (4 * q)) (fun i h => hi.mapped us _ (hin i h))
  have hw1 : word m0 (At src x y (4 * q)) = some w := by
    rw [← hw0]
    exact word_congr (fun i h => (hi.1 _ (fun ho => ha _ ho (hin i h))).symm)
  obtain ⟨m', h1, h2⟩ := store_pixel (v := converted m0 src) ud hx hw hy hh (l := bytes2 (toHalf w)) (q := 2 * q)
    (by omega) (by rw [bytes2_length]; omega)
    (fun i h => by
      rw [bytes2_length] at h
      unfold converted
      have e1 : (2 * q + (i : Int)) / 2 = q := by omega
      have e2 : ((2 * q + (i : Int)) % 2).toNat = i := by omega
      rw [e1, e2, hw1]
      rfl) hi
  exact ⟨m', by unfold convOne; rw [hw0]; exact h1, h2⟩

theorem convertMany_draws {m : Mem} {dst src : Img} (ud : Usable m dst) (us : Usable m src) (ha : Apart dst src)
    {c : Int} (hc : 0 < c) (hd : (dst.bytespp : Int) = 2 * c) (hs : (src.bytespp : Int) = 4 * c)
    (hw : dst.width = src.width) (hh : dst.height = src.height) :
    ∃ m', convertMany m c dst src = some m' ∧ Draws dst (converted m src) m m' := by
  have hwide := ud.wide
  have hwc : 0 ≤ dst.width * c := Int.mul_nonneg (by omega) (by omega)
  have hfit : dst.width * c < 2147483648 := by
    have h1 := ud.fits
    have : dst.width * (dst.bytespp : Int) = 2 * (dst.width * c) := by
      rw [hd, Int.mul_left_comm]
    omega
  have h32 : s32 (dst.width * c) = some (dst.width * c) := by unfold s32; rw [if_pos (by omega)]
  obtain ⟨m', h1, h2⟩ := rows_draw (m0 := m) (im := dst) (v := converted m src)
    (f := fun y m => do
      let d ← getPixel dst 0 y
      let n ← s32 (dst.width * c)
      let s ← getPixel src 0 y
      convRow n.toNat d s m) ud.apart (fun y hy hy' m' hi => by
        have g1 : getPixel dst 0 y = some (At dst 0 y 0) := getPixel_eq ud (by omega) ud.wide hy hy'
        have g2 : getPixel src 0 y = some (At src 0 y 0) := getPixel_eq us (by omega) us.wide hy (by omega)
        simp only [g1, g2, h32, bind, Option.bind]
        have e := convRow_eq (d := At dst 0 y 0) (s := At src 0 y 0) (dst.width * c).toNat 0 m'
        simp only [Int.zero_mul, Int.add_zero] at e
        rw [e]
        refine units_row (z := 2) (by omega) hy hy' ?_ hi (fun j hj hj' m2 hi2 => ?_)
        · rw [hd, Int.mul_left_comm]; omega
        have e1 := Int.ediv_mul_add_emod j c
        have e2 := Int.emod_nonneg j (Int.ne_of_gt hc)
        have e3 := Int.emod_lt_of_pos j hc
        have e4 : j / c < dst.width := Int.ediv_lt_of_lt_mul hc (by omega)
        have e5 : 0 ≤ j / c := Int.ediv_nonneg hj (by omega)
        have m1 : j / c * (2 * c) = 2 * (j / c * c) := Int.mul_left_comm _ _ _
        have m2' : j / c * (4 * c) = 4 * (j / c * c) := Int.mul_left_comm _ _ _
        have ed : At dst 0 y 0 + j * 2 = At dst (j / c) y (2 * (j % c)) := by
          unfold At; rw [hd]; simp; omega
        have es : At src 0 y 0 + j * 4 = At src (j / c) y (4 * (j % c)) := by
          unfold At; rw [hs]; simp; omega
        rw [ed, es]
        exact convOne_eff ud us ha e5 e4 (by omega) hy hy' (by omega) e2 (by omega) (by omega) hi2)
  exact ⟨m', h1, h2⟩

/-- **C76.** Converting images of 32-bit numbers to 16-bit numbers converts every number of every pixel and
changes nothing else. -/
theorem C76_convert {m : Mem} {dst src : Img} (ud : Usable m dst) (us : Usable m src) (ha : Apart dst src)
    (hw : dst.width = src.width) (hh : dst.height = src.height) :
    (dst.fmt = .half → src.fmt = .float → ∃ m', convertFloatToHalf m dst src = some m' ∧
      Draws dst (converted m src) m m') ∧
    (dst.fmt = .half2 → src.fmt = .float2 → ∃ m', convertFloat2ToHalf2 m dst src = some m' ∧
      Draws dst (converted m src) m m') ∧
    (dst.fmt = .half4 → src.fmt = .float4 → ∃ m', convertFloat4ToHalf4 m dst src = some m' ∧
      Draws dst (converted m src) m m') := by
  have hwide := ud.wide
  refine ⟨fun h1 h2 => ?_, fun h1 h2 => ?_, fun h1 h2 => ?_⟩
  · have hd : dst.bytespp = 2 := by rw [ud.bpp, h1]; rfl
    have hs : src.bytespp = 4 := by rw [us.bpp, h2]; rfl
    unfold convertFloatToHalf
    rw [if_pos ⟨h1, hd, h2, hs, hw, hh⟩]
    refine rows_draw ud.apart (fun y hy hy' m' hi => ?_)
    rw [convPixels_eq ud us hw hy hy' (by omega) _ _ _ (by omega) (by omega)]
    refine units_row (z := 2) (by omega) hy hy' (by rw [hd]; omega) hi (fun j hj hj' m2 hi2 => ?_)
    have ed : At dst 0 y 0 + j * 2 = At dst j y (2 * 0) := by unfold At; rw [hd]; simp
    rw [ed]
    exact convOne_eff (q := 0) ud us ha hj (by omega) (by omega) hy hy' (by omega) (by omega) (by omega)
      (by omega) hi2
  · have hd : dst.bytespp = 4 := by rw [ud.bpp, h1]; rfl
    have hs : src.bytespp = 8 := by rw [us.bpp, h2]; rfl
    unfold convertFloat2ToHalf2
    rw [if_pos ⟨h1, hd, h2, hs, hw, hh⟩]
    exact convertMany_draws ud us ha (by omega) (by omega) (by omega) hw hh
  · have hd : dst.bytespp = 8 := by rw [ud.bpp, h1]; rfl
    have hs : src.bytespp = 16 := by rw [us.bpp, h2]; rfl
    unfold convertFloat4ToHalf4
    rw [if_pos ⟨h1, hd, h2, hs, hw, hh⟩]
    exact convertMany_draws ud us ha (by omega) (by omega) (by omega) hw hh

example : ∃ m', convertFloat2ToHalf2 demoMem (mkImg 300 (-8) 2 3 .half2) (mkImg 100 20 2 3 .float2) = some m' := by
  refine ((C76_convert (dst := mkImg 300 (-8) 2 3 .half2) (src := mkImg 100 20 2 3 .float2) ?_ ?_ ?_ rfl rfl).2.1
    rfl rfl).imp (fun m h => h.1)
  · exact demo_usable (lo := 250) rfl (by decide) (by decide) (by decide) (by decide) (by decide)
      (fun x y k h => by unfold Inside at h; unfold At; simp [mkImg, Format.bpp] at h ⊢; omega) (by omega)
  · exact demo_usable (lo := 100) rfl (by decide) (by decide) (by decide) (by decide) (by decide)
      (fun x y k h => by unfold Inside at h; unfold At; simp [mkImg, Format.bpp] at h ⊢; omega) (by omega)
  · rintro a ⟨x, y, k, h, e⟩ ⟨x', y', k', h', e'⟩
    unfold Inside at h h'
    unfold At at e e'
    simp [mkImg, Format.bpp] at h h' e e'
    omega

/-- **C76.** A number that the 16-bit format has room for, and that is not too small, is converted by cutting
digits off. -/
theorem C76_half_partial {b : UInt32} {v : Int} (h : floatVal b = some v) (h1 : halfLeast ≤ v.natAbs)
    (h2 : (v.natAbs : Int) < halfBound) : CutTo v (toHalf b) := by
  obtain ⟨_, ha, hp, hn⟩ := floatVal_abs h
  have hb := b.toNat_lt
  have r := exponent_range (e := b.toNat / 8388608 % 256) (f := b.toNat % 8388608) (by omega) ha
  have hA : 2 ^ 136 ≤ v.natAbs := by
    have : ((2 ^ 136 : Nat) : Int) ≤ v.natAbs := h1
    exact Int.ofNat_le.1 this
  have hB : v.natAbs < 2 ^ 166 := by
    have : (v.natAbs : Int) < ((2 ^ 166 : Nat) : Int) := h2
    exact Int.ofNat_lt.1 this
  have e1 := r.1.1 hA
  have e2 := r.2.1 hB
  have hT := toHalf_normal e1 e2
  rw [if_neg (by omega)] at ha
  have hE : (toHalf b).toNat / 1024 % 32 = b.toNat / 8388608 % 256 - 112 := by omega
  have hM : (toHalf b).toNat % 1024 = b.toNat % 8388608 / 8192 := by omega
  have hS : (toHalf b).toNat < 32768 ↔ b.toNat < 2147483648 := by omega
  let H : Nat := (1024 + b.toNat % 8388608 / 8192) * 2 ^ (b.toNat / 8388608 % 256 - 112 + 125)
  have hv : halfVal (toHalf b) = if b.toNat < 2147483648 then some (H : Int) else some (-(H : Int)) := by
    unfold halfVal
    dsimp only
    have hz : ¬ b.toNat / 8388608 % 256 - 112 = 0 := by omega
    rw [hE, hM, if_neg (by omega), if_neg hz]
    by_cases hs : b.toNat < 2147483648
    · rw [if_pos hs, if_pos (hS.2 hs)]
    · rw [if_neg hs, if_neg (fun x => hs (hS.1 x))]
  have hle : H ≤ v.natAbs := by
    rw [ha]
    show (1024 + b.toNat % 8388608 / 8192) * 2 ^ (b.toNat / 8388608 % 256 - 112 + 125) ≤ _
    have : b.toNat / 8388608 % 256 - 112 + 125 = b.toNat / 8388608 % 256 + 13 := by omega
    rw [this, Nat.pow_add, Nat.mul_comm (2 ^ (b.toNat / 8388608 % 256)), ← Nat.mul_assoc]
    exact Nat.mul_le_mul_right _ (by omega)
  have hbest : ∀ c' h', halfVal c' = some h' → h'.natAbs ≤ v.natAbs → h'.natAbs ≤ H := by
    intro c' h' hc hle'
    obtain ⟨_, h3⟩ := halfVal_abs hc
    rw [h3]
    rw [h3, ha] at hle'
    exact cut_best e1 (by omega) (by omega) hle'
  have hpos : 0 < v.natAbs := Nat.lt_of_lt_of_le (Nat.two_pow_pos 136) hA
  by_cases hs : b.toNat < 2147483648
  · rw [if_pos hs] at hv
    have hnn : ¬ v < 0 := fun x => by have := hn x; omega
    exact ⟨_, hv, fun _ => by omega, fun x => by omega, by rw [Int.natAbs_natCast]; exact hle,
      fun c' h' a1 a2 => by rw [Int.natAbs_natCast]; exact hbest c' h' a1 a2⟩
  · rw [if_neg hs] at hv
    have hnn : ¬ 0 < v := fun x => hs (hp x)
    exact ⟨_, hv, fun _ => by omega, fun x => by omega,
      by rw [Int.natAbs_neg, Int.natAbs_natCast]; exact hle,
      fun c' h' a1 a2 => by rw [Int.natAbs_neg, Int.natAbs_natCast]; exact hbest c' h' a1 a2⟩

/-- -1.1 and what is left of it. -/
example : toHalf 0xbf8ccccd = 0xbc66 := by decide
example : CutTo (-(9227469 * 2 ^ 127)) (toHalf 0xbf8ccccd) :=
  C76_half_partial (by decide +kernel) (by decide +kernel) (by decide +kernel)

/-- **C76.** Every number that is smaller becomes zero. -/
theorem C76_half_small {b : UInt32} {v : Int} (h : floatVal b = some v) (h1 : (v.natAbs : Int) < halfLeast) :
    toHalf b = 0 := by
  obtain ⟨_, ha, _, _⟩ := floatVal_abs h
  have r := exponent_range (e := b.toNat / 8388608 % 256) (f := b.toNat % 8388608) (by omega) ha
  have hA : ¬ 2 ^ 136 ≤ v.natAbs := fun x => by
    have : ((2 ^ 136 : Nat) : Int) ≤ v.natAbs := Int.ofNat_le.2 x
    have h1' : (v.natAbs : Int) < ((2 ^ 136 : Nat) : Int) := h1
    omega
  have e1 : ¬ 113 ≤ b.toNat / 8388608 % 256 := fun x => hA (r.1.2 x)
  apply UInt16.toNat_inj.1
  rw [toHalf_toNat, if_neg e1]
  rfl

example : toHalf 0xb8000000 = 0 := C76_half_small (v := -(8388608 * 2 ^ 112)) (by decide +kernel) (by decide +kernel)

/-- **C76.** Every 16-bit number with full precision is the conversion of the same 32-bit number. -/
theorem C76_half_exact {c : UInt16} {h : Int} (hc : halfVal c = some h) (hl : halfLeast ≤ h.natAbs) :
    ∃ b, floatVal b = some h ∧ toHalf b = c := by
  have hlt := c.toNat_lt
  obtain ⟨h31, ha⟩ := halfVal_abs hc
  have hE : c.toNat / 1024 % 32 ≠ 0 := by
    intro h0
    rw [if_pos h0] at ha
    have hA : 2 ^ 136 ≤ h.natAbs := by
      have : ((2 ^ 136 : Nat) : Int) ≤ h.natAbs := hl
      exact Int.ofNat_le.1 this
    rw [ha] at hA
    have : c.toNat % 1024 * 2 ^ 126 < 2 ^ 136 := by
      rw [show (2 : Nat) ^ 136 = 1024 * 2 ^ 126 by decide +kernel]
      exact Nat.mul_lt_mul_of_pos_right (by omega) (Nat.two_pow_pos 126)
    omega
  let n : Nat := 2147483648 * (c.toNat / 32768) + 8388608 * (c.toNat / 1024 % 32 + 112) + 8192 * (c.toNat % 1024)
  have hn : n = 2147483648 * (c.toNat / 32768) + 8388608 * (c.toNat / 1024 % 32 + 112) + 8192 * (c.toNat % 1024) := rfl
  have hnlt : n < 4294967296 := by omega
  have hb : (UInt32.ofNat n).toNat = n := by
    rw [UInt32.toNat_ofNat']; exact Nat.mod_eq_of_lt hnlt
  have b1 : n / 8388608 % 256 = c.toNat / 1024 % 32 + 112 := by omega
  have b2 : n % 8388608 = 8192 * (c.toNat % 1024) := by omega
  have b3 : n < 2147483648 ↔ c.toNat < 32768 := by omega
  refine ⟨UInt32.ofNat n, ?_, ?_⟩
  · unfold floatVal
    dsimp only
    have hz : ¬ c.toNat / 1024 % 32 + 112 = 0 := by omega
    rw [hb, b1, b2, if_neg (by omega), if_neg hz]
    have hpow : (8388608 + 8192 * (c.toNat % 1024)) * 2 ^ (c.toNat / 1024 % 32 + 112) =
        (1024 + c.toNat % 1024) * 2 ^ (c.toNat / 1024 % 32 + 125) := by
      rw [show c.toNat / 1024 % 32 + 125 = c.toNat / 1024 % 32 + 112 + 13 by omega,
        Nat.pow_add 2 (c.toNat / 1024 % 32 + 112) 13, Nat.mul_comm (2 ^ (c.toNat / 1024 % 32 + 112)),
        ← Nat.mul_assoc]
      have e : 8388608 + 8192 * (c.toNat % 1024) = (1024 + c.toNat % 1024) * 2 ^ 13 := by
        rw [show (2 : Nat) ^ 13 = 8192 from rfl, Nat.add_mul, Nat.mul_comm 8192]
      rw [e]
    rw [hpow]
    unfold halfVal at hc
    dsimp only at hc
    rw [if_neg h31, if_neg hE] at hc
    rw [← hc]
    by_cases hs : c.toNat < 32768
    · rw [if_pos hs, if_pos (b3.2 hs)]
    · rw [if_neg hs, if_neg (fun x => hs (b3.1 x))]
  · apply UInt16.toNat_inj.1
    rw [toHalf_normal (by rw [hb]; omega) (by rw [hb]; omega), hb]
    omega

example : halfVal 0xc248 = some (-(1608 * 2 ^ 141)) := by decide +kernel

/-- **C76, what fails.** Small numbers that the 16-bit format has become zero (2^-15), the sign of zero is
lost, numbers that are too great become other numbers (131072 becomes 0), and infinity becomes 1. -/
theorem C76_half_wrong :
    (floatVal 0x38000000 = some (2 ^ 135) ∧ halfVal 0x0200 = some (2 ^ 135) ∧ toHalf 0x38000000 = 0) ∧
    toHalf 0x80000000 = 0 ∧
    (floatVal 0x48000000 = some (131072 * 2 ^ 150) ∧ toHalf 0x48000000 = 0) ∧
    (toHalf 0x7f800000 = 0x3c00 ∧ halfVal 0x3c00 = some (2 ^ 150)) := by
  decide +kernel

/-- **C76.** The function that converts one number asserts that the number is in range, so what it returns is
the number without some digits, or zero for a small number. -/
theorem C76_half_checked {b : UInt32} {c : UInt16} (h : floatToHalf b = some c) :
    ∃ v, floatVal b = some v ∧ ((v.natAbs : Int) < halfLeast ∧ c = 0 ∨ CutTo v c) := by
  unfold floatToHalf at h
  split at h
  · rename_i hlt
    injection h with h
    subst h
    have hb := b.toNat_lt
    rw [UInt32.lt_iff_toNat_lt, UInt32.toNat_and] at hlt
    have e : b.toNat &&& 2147483647 = b.toNat % 2147483648 := by
      have := Nat.and_two_pow_sub_one_eq_mod b.toNat 31
      simpa using this
    have hlt' : b.toNat &&& 2147483647 < 1199433728 := hlt
    rw [e] at hlt'
    have he : b.toNat / 8388608 % 256 ≤ 142 := by omega
    have hv : ∃ v, floatVal b = some v := by
      unfold floatVal
      dsimp only
      rw [if_neg (by omega)]
      by_cases hs : b.toNat < 2147483648
      · rw [if_pos hs]; exact ⟨_, rfl⟩
      · rw [if_neg hs]; exact ⟨_, rfl⟩
    obtain ⟨v, hv⟩ := hv
    refine ⟨v, hv, ?_⟩
    by_cases hl : (v.natAbs : Int) < halfLeast
    · exact .inl ⟨hl, C76_half_small hv hl⟩
    · obtain ⟨_, ha, _, _⟩ := floatVal_abs hv
      have r := exponent_range (e := b.toNat / 8388608 % 256) (f := b.toNat % 8388608) (by omega) ha
      have hB : (v.natAbs : Int) < ((2 ^ 166 : Nat) : Int) := Int.ofNat_lt.2 (r.2.2 he)
      exact .inr (C76_half_partial hv (by omega) hB)
  · cases h

example : floatToHalf 0x42f6e979 = some 0x57b7 := by decide

/-! ## Colours -/

/-- Byte `k` of the word for a pixel of one byte. -/
def gammaByte (gamma : Byte → UInt32) (m : Mem) (src : Img) (x y k : Int) : Option Byte :=
  (m (At src x y 0)).bind fun s => (srgb gamma s).bind fun w => (bytes4 w)[k.toNat]?

/-- **C76.** Bytes below 128 become words, pixel by pixel, with the colour in three bytes and what is missing
to 255 in the fourth. -/
theorem C76_srgb_partial {gamma : Byte → UInt32} {m : Mem} {dst src : Img} (ud : Usable m dst)
    (us : Usable m src) (ha : Apart dst src) (hd : dst.bytespp = 4) (hs : src.bytespp = 1)
    (hw : dst.width = src.width) (hh : dst.height = src.height) (hpd : 0 < dst.stride) (hps : 0 < src.stride)
    (hlow : ∀ x y s, Inside src x y 0 → m (At src x y 0) = some s → s < 128) :
    ∃ m', linearToSRGB gamma m dst src = some m' ∧ Draws dst (gammaByte gamma m src) m m' := by
  have hwide := ud.wide
  have ht := ud.tall
  have hA := ud.apart
  have hB := us.apart
  rw [hd] at hA
  rw [hs] at hB
  have hfit := ud.fits
  rw [hd] at hfit
  obtain ⟨m', h1, h2⟩ := rows_draw (m0 := m) (im := dst) (v := gammaByte gamma m src)
    (f := fun y m => srgbRow gamma dst.width.toNat (dst.data + y * dst.stride)
        (src.data + (dst.data + y * dst.stride - dst.data) / dst.stride * src.stride) m) ud.apart
    (fun y hy hy' m' hi => by
      have e0 : dst.data + y * dst.stride = At dst 0 y 0 := by unfold At; simp
      have e1 : src.data + (dst.data + y * dst.stride - dst.data) / dst.stride * src.stride = At src 0 y 0 := by
        have : (dst.data + y * dst.stride - dst.data) / dst.stride = y := by
          rw [show dst.data + y * dst.stride - dst.data = y * dst.stride by omega]
          exact Int.mul_ediv_cancel _ (by omega)
        rw [this]; unfold At; simp
      have e := srgbRow_eq (gamma := gamma) (d := At dst 0 y 0) (s := At src 0 y 0) dst.width.toNat 0 m'
      simp only [Int.zero_mul, Int.add_zero] at e
      rw [e1, e0, e]
      refine units_row (z := 4) (by omega) hy hy' (by rw [hd]; omega) hi (fun j hj hj' m2 hi2 => ?_)
      have ed : At dst 0 y 0 + j * 4 = At dst j y 0 := by unfold At; rw [hd]; simp
      have es : At src 0 y 0 + j = At src j y 0 := by unfold At; rw [hs]; simp
      have hin : Inside src j y 0 := ⟨hj, by omega, hy, by omega, by omega, by rw [hs]; omega⟩
      have ho : Owns src (At src j y 0) := ⟨j, y, 0, hin, rfl⟩
      have hsame : m2 (At src j y 0) = m (At src j y 0) := hi2.1 _ (fun h => ha _ h ho)
      cases hv : m (At src j y 0) with
      | none => exact absurd hv (us.mapped _ ho)
      | some s =>
        have hlt := hlow j y s hin hv
        have hsr : ∃ w, srgb gamma s = some w := by unfold srgb; rw [if_pos hlt]; exact ⟨_, rfl⟩
        obtain ⟨w, hsr⟩ := hsr
        obtain ⟨m3, s1, s2⟩ := store_pixel (v := gammaByte gamma m src) ud (x := j) (y := y) hj (by omega)
          hy hy' (l := bytes4 w) (q := 0) (by omega) (by rw [bytes4_length, hd]; omega)
          (fun i h => by unfold gammaByte; rw [hv]; simp [hsr]) hi2
        refine ⟨m3, ?_, ?_⟩
        · unfold srgbOne
          rw [es, hsame, hv]
          simp only [Option.bind, hsr]
          rw [ed]
          exact s1
        · rw [ed]; exact s2)
  refine ⟨m', ?_, h2⟩
  have n1 : s32 (dst.width * 4) = some (dst.width * 4) := by unfold s32; rw [if_pos (by omega)]
  have n2 : s32 (dst.stride * dst.height) = some (dst.height * dst.stride) := by
    have := ud.small
    have h3 : (dst.stride.natAbs : Int) = dst.stride := by omega
    rw [h3] at this
    have : 0 ≤ dst.height * dst.stride := Int.mul_nonneg ht (by omega)
    unfold s32
    rw [Int.mul_comm dst.stride, if_pos (by omega)]
  unfold linearToSRGB
  simp only [n1, n2, bind, Option.bind]
  rw [if_pos ⟨by omega, by omega, hw, hh⟩]
  have := rowLoop_eq (f := fun row m => srgbRow gamma dst.width.toNat row
        (src.data + (row - dst.data) / dst.stride * src.stride) m) (data := dst.data) (h := dst.height) hpd
    dst.height.toNat 0 m (by omega)
  simp only [Int.zero_mul, Int.add_zero] at this
  exact this.trans h1

example : ∃ m', linearToSRGB (fun s => UInt32.ofNat s.toNat) demoMem (mkImg 300 8 2 3 .rgba) (mkImg 100 2 2 3 .byte) =
    some m' := by
  refine (C76_srgb_partial (dst := mkImg 300 8 2 3 .rgba) (src := mkImg 100 2 2 3 .byte) ?_ ?_ ?_ rfl rfl rfl rfl
    (by decide) (by decide) ?_).imp (fun m h => h.1)
  · exact demo_usable (lo := 300) rfl (by decide) (by decide) (by decide) (by decide) (by decide)
      (fun x y k h => by unfold Inside at h; unfold At; simp [mkImg, Format.bpp] at h ⊢; omega) (by omega)
  · exact demo_usable (lo := 100) rfl (by decide) (by decide) (by decide) (by decide) (by decide)
      (fun x y k h => by unfold Inside at h; unfold At; simp [mkImg, Format.bpp] at h ⊢; omega) (by omega)
  · rintro a ⟨x, y, k, h, e⟩ ⟨x', y', k', h', e'⟩
    unfold Inside at h h'
    unfold At at e e'
    simp [mkImg, Format.bpp] at h h' e e'
    omega
  · intro x y s _ h
    unfold demoMem at h
    split at h
    · injection h with h
      rw [← h, UInt8.lt_iff_toNat_lt, UInt8.toNat_ofNat']
      show _ < 128
      omega
    · cases h

/-- **C76, what fails.** The conversion of a single pixel from 128 on is undefined. -/
theorem C76_srgb_undefined {gamma : Byte → UInt32} {s : Byte} (h : 128 ≤ s) : srgb gamma s = none := by
  unfold srgb
  rw [if_neg]
  rw [UInt8.lt_iff_toNat_lt]
  rw [UInt8.le_iff_toNat_le] at h
  omega

example : srgb (fun _ => 255) 200 = none := C76_srgb_undefined (by decide)

/-- **C76.** A colour and its word determine each other. -/
theorem C76_colour_word (x y z w x' y' z' w' : Byte) (h : toRGBA x y z w = toRGBA x' y' z' w') :
    x = x' ∧ y = y' ∧ z = z' ∧ w = w' := by
  unfold toRGBA at h
  have h := congrArg UInt32.toNat h
  rw [UInt32.toNat_ofNat', UInt32.toNat_ofNat'] at h
  have := x.toNat_lt; have := y.toNat_lt; have := z.toNat_lt; have := w.toNat_lt
  have := x'.toNat_lt; have := y'.toNat_lt; have := z'.toNat_lt; have := w'.toNat_lt
  simp only [← UInt8.toNat_inj]
  omega

example : toRGBA 1 2 3 4 = 0x04030201 := by decide

/-- **C76, what fails.** The word with the bytes in the other order mixes two of them up: the first one is
put where the second one is, and different colours get the same word. -/
theorem C76_colour_reversed_wrong :
    toABGR 1 0 0 0 = toABGR 0 1 0 0 ∧ toABGR 1 2 3 4 ≠ 0x01020304 := by decide

end Verif.Image
