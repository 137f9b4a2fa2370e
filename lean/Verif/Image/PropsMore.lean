import Verif.Image.Props
/-!
# Images in memory — properties (C76), continued: the size in bytes and the bytes of a colour
-/
namespace Verif.Image

/-- **C76.** The size of an image stored from the top is defined, and is that many bytes from its start: they contain
every byte of every pixel, and one stride less would not do (the last row begins with the last
stride). -/
theorem C76_size {m : Mem} {im : Img} (u : Usable m im) (hs : 0 < im.stride) :
    ∃ n, size im = some n ∧ (∀ a, Owns im a → im.data ≤ a ∧ a < im.data + n) ∧
      ∀ b, b ≤ n - im.stride → 0 < im.height → 0 < im.bytespp → ∃ a, Owns im a ∧ im.data + b ≤ a := by
  have hst : (im.stride.natAbs : Int) = im.stride := by omega
  have hsm := u.small
  have hap := u.apart
  have hw := u.wide
  have ht := u.tall
  rw [hst] at hsm hap
  have h0 : 0 ≤ im.stride * im.height := Int.mul_nonneg (by omega) ht
  have hc : im.height * im.stride = im.stride * im.height := Int.mul_comm _ _
  refine ⟨im.stride * im.height, ?_, ?_, ?_⟩
  · unfold size s32
    rw [if_pos hs, if_pos (by omega)]
    simp [h0]
  · rintro a ⟨x, y, k, ⟨h1, h2, h3, h4, h5, h6⟩, rfl⟩
    unfold At
    have hy : 0 ≤ y * im.stride := Int.mul_nonneg h3 (by omega)
    have hx : 0 ≤ x * im.bytespp := Int.mul_nonneg h1 (by omega)
    have hx2 : (x + 1) * im.bytespp ≤ im.width * im.bytespp := Int.mul_le_mul_of_nonneg_right (by omega) (by omega)
    have hy2 : (y + 1) * im.stride ≤ im.height * im.stride := Int.mul_le_mul_of_nonneg_right (by omega) (by omega)
    rw [Int.add_mul] at hx2 hy2
    omega
  · intro b hb hh hbp
    refine ⟨At im 0 (im.height - 1) 0, ⟨0, im.height - 1, 0, ⟨by omega, by omega, by omega, by omega, by omega, by omega⟩, rfl⟩, ?_⟩
    unfold At
    rw [Int.sub_mul]
    omega

example : ∃ n, size demoSrc = some n ∧ n = 36 ∧ ∀ a, Owns demoSrc a → 100 ≤ a ∧ a < 100 + n := by
  obtain ⟨n, h1, h2, _⟩ := C76_size demoSrc_usable (by decide)
  have : size demoSrc = some 36 := by decide
  rw [this] at h1
  cases h1
  exact ⟨36, this, rfl, h2⟩

/-- **C76.** The bytes of the word of a colour are the red, green, blue and opacity of the colour, in this order. -/
theorem C76_colour_bytes (x y z w : Byte) :
    (toRGBA x y z w).toNat % 256 = x.toNat ∧ (toRGBA x y z w).toNat / 256 % 256 = y.toNat ∧
    (toRGBA x y z w).toNat / 65536 % 256 = z.toNat ∧ (toRGBA x y z w).toNat / 16777216 = w.toNat := by
  unfold toRGBA
  rw [UInt32.toNat_ofNat']
  have := x.toNat_lt; have := y.toNat_lt; have := z.toNat_lt; have := w.toNat_lt
  omega

example : (toRGBA 10 20 30 255).toNat / 65536 % 256 = 30 := (C76_colour_bytes 10 20 30 255).2.2.1

end Verif.Image
