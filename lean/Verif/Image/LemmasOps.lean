import Verif.Image.Lemmas
/-!
# Images in memory — lemmas about the operations
-/
namespace Verif.Image

theorem Inv.mapped {O : Int → Prop} {m0 m : Mem} (h : Inv O m0 m) {im : Img} (u : Usable m0 im) :
    ∀ a, Owns im a → m a ≠ none := fun a ha => h.2 a (u.mapped a ha)

/-- Ranges without a common element. -/
theorem ranges_apart {d s : Int} {n : Nat} (h : ∀ b, d ≤ b ∧ b < d + n → ¬ (s ≤ b ∧ b < s + n)) :
    n = 0 ∨ d + n ≤ s ∨ s + n ≤ d := by
  by_cases h0 : n = 0
  · exact .inl h0
  by_cases h1 : d + n ≤ s
  · exact .inr (.inl h1)
  by_cases h2 : s + n ≤ d
  · exact .inr (.inr h2)
  exfalso
  by_cases h3 : d ≤ s
  · exact h s (by omega) (by omega)
  · exact h d (by omega) (by omega)

/-- The number of bytes of a row. -/
theorem row_len {m : Mem} {im : Img} (u : Usable m im) :
    ∃ n : Nat, (n : Int) = im.width * im.bytespp ∧ s32 (im.fmt.bpp * im.width) = some (n : Int) := by
  have h1 : 0 ≤ im.width * (im.bytespp : Int) := Int.mul_nonneg (by have := u.wide; omega) (by omega)
  have h2 := u.fits
  refine ⟨(im.width * (im.bytespp : Int)).toNat, by omega, ?_⟩
  have e : (im.fmt.bpp : Int) * im.width = im.width * im.bytespp := by rw [← u.bpp, Int.mul_comm]
  unfold s32
  rw [e, if_pos (by omega)]
  congr 1
  omega

theorem row_apart {dst src : Img} (ha : Apart dst src) {y y' : Int} (hy : 0 ≤ y) (hh : y < dst.height)
    (hy' : 0 ≤ y') (hh' : y' < src.height) {n : Nat} (hn : (n : Int) = dst.width * dst.bytespp)
    (hn' : (n : Int) = src.width * src.bytespp) :
    n = 0 ∨ At dst 0 y 0 + n ≤ At src 0 y' 0 ∨ At src 0 y' 0 + n ≤ At dst 0 y 0 :=
  ranges_apart (fun b hb hb' =>
    ha b (row_owns ((row_iff hy hh hn b).1 hb)) (row_owns ((row_iff hy' hh' hn' b).1 hb')))

/-- Copying a row. -/
theorem copy_row {m0 m : Mem} {dst src : Img} (ud : Usable m0 dst) (us : Usable m0 src)
    (ha : Apart dst src) (hb : dst.bytespp = src.bytespp) (hw : dst.width = src.width)
    {v : Int → Int → Int → Option Byte} {y y' : Int} (hy : 0 ≤ y) (hh : y < dst.height)
    (hy' : 0 ≤ y') (hh' : y' < src.height)
    (hv : ∀ x k, Inside dst x y k → v x y k = m0 (At src x y' k)) {n : Nat}
    (hn : (n : Int) = dst.width * dst.bytespp) (hi : Inv (Owns dst) m0 m) :
    ∃ m', memcpy m (At dst 0 y 0) (At src 0 y' 0) n = some m' ∧ Eff (Row dst y) (Want dst v) m m' := by
  have hn' : (n : Int) = src.width * src.bytespp := by rw [← hb, ← hw]; exact hn
  have hsrc : ∀ i : Nat, i < n → Owns src (At src 0 y' 0 + i) := fun i h =>
    row_owns ((row_iff hy' hh' hn' _).1 ⟨by omega, by omega⟩)
  have hdst : ∀ i : Nat, i < n → Owns dst (At dst 0 y 0 + i) := fun i h =>
    row_owns ((row_iff hy hh hn _).1 ⟨by omega, by omega⟩)
  obtain ⟨m', h1, e⟩ := memcpy_eff (R := Want dst v) (m := m) (row_apart ha hy hh hy' hh' hn hn')
    (fun i h => hi.mapped ud _ (hdst i h)) (fun i h => hi.mapped us _ (hsrc i h))
    (fun i h => by
      obtain ⟨x, k, hin, e⟩ := row_byte (im := dst) (i := i) hy hh (by omega) (by omega)
      refine ⟨hi.mapped us _ (hsrc i h), x, y, k, hin, ?_, ?_⟩
      · unfold At; simp; omega
      · rw [hv x k hin, hi.1 _ (fun hd => ha _ hd (hsrc i h))]
        congr 1
        unfold At
        rw [← hb]
        simp; omega)
  exact ⟨m', h1, e.congr (row_iff hy hh hn)⟩

/-! ## Loops as loops over numbers -/

theorem rowLoop_eq {f : Int → Mem → Option Mem} {data stride h : Int} (hs : 0 < stride) :
    ∀ (n : Nat) (y : Int) (m : Mem), y + n = h →
      rowLoop f stride (data + h * stride) (data + y * stride) m =
        forRows (fun y m => f (data + y * stride) m) n y m := by
  intro n
  induction n with
  | zero =>
    intro y m e
    rw [rowLoop, if_neg, forRows]
    have : y = h := by omega
    subst this
    omega
  | succ n ih =>
    intro y m e
    have hlt : y * stride < h * stride := Int.mul_lt_mul_of_pos_right (by omega) hs
    rw [rowLoop, if_pos (by omega), if_neg (by omega), forRows]
    cases hf : f (data + y * stride) m with
    | none => rfl
    | some m' =>
      dsimp only
      rw [← ih (y + 1) m' (by omega)]
      congr 1
      rw [Int.add_mul]; omega

theorem fill_eq {v : List Byte} {a : Int} : ∀ (n : Nat) (i : Int) (m : Mem),
    fill v n (a + i * v.length) m = forRows (fun i m => store m (a + i * v.length) v) n i m := by
  intro n
  induction n with
  | zero => intro i m; rfl
  | succ n ih =>
    intro i m
    rw [fill, forRows]
    cases store m (a + i * v.length) v with
    | none => rfl
    | some m' =>
      dsimp only
      rw [← ih (i + 1) m']
      congr 1
      rw [Int.add_mul]; omega

theorem copyWords_eq {d s : Int} : ∀ (n : Nat) (i : Int) (m : Mem),
    copyWords n (d + i * 4) (s + i * 4) m =
      forRows (fun i m => (load m (s + i * 4) 4).bind (store m (d + i * 4))) n i m := by
  intro n
  induction n with
  | zero => intro i m; rfl
  | succ n ih =>
    intro i m
    rw [copyWords, forRows]
    cases (load m (s + i * 4) 4).bind (store m (d + i * 4)) with
    | none => rfl
    | some m' =>
      dsimp only
      rw [← ih (i + 1) m']
      congr 1 <;> omega

theorem convRow_eq {d s : Int} : ∀ (n : Nat) (i : Int) (m : Mem),
    convRow n (d + i * 2) (s + i * 4) m =
      forRows (fun i m => convOne (d + i * 2) (s + i * 4) m) n i m := by
  intro n
  induction n with
  | zero => intro i m; rfl
  | succ n ih =>
    intro i m
    rw [convRow, forRows]
    cases convOne (d + i * 2) (s + i * 4) m with
    | none => rfl
    | some m' =>
      dsimp only
      rw [← ih (i + 1) m']
      congr 1 <;> omega

theorem convPixels_eq {m0 : Mem} {dst src : Img} (ud : Usable m0 dst) (us : Usable m0 src)
    (hw : dst.width = src.width) {y : Int}
    (hy : 0 ≤ y) (hh : y < dst.height) (hh' : y < src.height) : ∀ (n : Nat) (x : Int) (m : Mem), 0 ≤ x →
      x + n ≤ dst.width →
    convPixels dst src y n x m =
      forRows (fun x m => convOne (At dst x y 0) (At src x y 0) m) n x m := by
  intro n
  induction n with
  | zero => intro i m _ _; rfl
  | succ n ih =>
    intro x m hx hl
    rw [convPixels, forRows, getPixel_eq ud hx (by omega) hy hh, getPixel_eq us hx (by omega) hy hh']
    dsimp only
    cases convOne (At dst x y 0) (At src x y 0) m with
    | none => rfl
    | some m' => exact ih (x + 1) m' (by omega) (by omega)

/-- The step of `srgbRow`. -/
def srgbOne (gamma : Byte → UInt32) (d s : Int) (m : Mem) : Option Mem :=
  match (m s).bind (srgb gamma) with
  | some v => store m d (bytes4 v)
  | none => none

theorem srgbRow_eq {gamma : Byte → UInt32} {d s : Int} : ∀ (n : Nat) (i : Int) (m : Mem),
    srgbRow gamma n (d + i * 4) (s + i) m =
      forRows (fun i m => srgbOne gamma (d + i * 4) (s + i) m) n i m := by
  intro n
  induction n with
  | zero => intro i m; rfl
  | succ n ih =>
    intro i m
    rw [srgbRow, forRows]
    unfold srgbOne
    cases (m (s + i)).bind (srgb gamma) with
    | none => rfl
    | some v =>
      dsimp only
      cases store m (d + i * 4) (bytes4 v) with
      | none => rfl
      | some m' =>
        dsimp only
        have := ih (i + 1) m'
        unfold srgbOne at this
        rw [← this]
        congr 1 <;> omega

/-- Units of `z` bytes one after the other make up a range. -/
theorem units_range {d z : Int} (hz : 0 < z) (n : Nat) (b : Int) :
    (∃ j, 0 ≤ j ∧ j < 0 + (n : Int) ∧ d + j * z ≤ b ∧ b < d + j * z + z) ↔
      d ≤ b ∧ b < d + n * z := by
  constructor
  · rintro ⟨j, h1, h2, h3, h4⟩
    have := col_lt (x := j) (w := n) (k := b - (d + j * z)) (z := z) h1 (by omega) (by omega) (by omega)
    omega
  · rintro ⟨h1, h2⟩
    have e := Int.ediv_mul_add_emod (b - d) z
    have l := Int.emod_lt_of_pos (b - d) hz
    have g := Int.emod_nonneg (b - d) (Int.ne_of_gt hz)
    refine ⟨(b - d) / z, Int.ediv_nonneg (by omega) (by omega), ?_, by omega, by omega⟩
    have := Int.ediv_lt_of_lt_mul hz (show b - d < (n : Int) * z by omega)
    omega

/-- Operations that go through a row in units of `z` bytes. -/
theorem units_row {m0 m : Mem} {im : Img} {v : Int → Int → Int → Option Byte} {f : Int → Mem → Option Mem}
    {y z : Int} (hz : 0 < z) (hy : 0 ≤ y) (hh : y < im.height) {n : Nat}
    (hn : n * z = im.width * im.bytespp) (hi : Inv (Owns im) m0 m)
    (hf : ∀ j : Int, 0 ≤ j → j < n → ∀ m, Inv (Owns im) m0 m → ∃ m', f j m = some m' ∧
      Eff (fun b => At im 0 y 0 + j * z ≤ b ∧ b < At im 0 y 0 + j * z + z) (Want im v) m m') :
    ∃ m', forRows f n 0 m = some m' ∧ Eff (Row im y) (Want im v) m m' := by
  have hnz : 0 ≤ (n : Int) * z := Int.mul_nonneg (by omega) (by omega)
  have hrow : ∀ b, (At im 0 y 0 ≤ b ∧ b < At im 0 y 0 + n * z) ↔ Row im y b := fun b => by
    have := row_iff (n := ((n : Int) * z).toNat) hy hh (by omega) b
    rw [← this]
    constructor <;> (intro h; omega)
  obtain ⟨m', h1, e⟩ := forRows_eff (O := Owns im) (R := Want im v) (m0 := m0) (f := f)
    (E := fun j b => At im 0 y 0 + j * z ≤ b ∧ b < At im 0 y 0 + j * z + z) want_ne n 0 m hi
    (fun j h1 h2 b hb => row_owns ((hrow b).1 ((units_range hz n b).1 ⟨j, h1, h2, hb⟩)))
    (fun j h1 h2 m hi => hf j h1 (by omega) m hi)
  exact ⟨m', h1, e.congr (fun b => (units_range hz n b).trans (hrow b))⟩

/-- One value written to a pixel. -/
theorem store_pixel {m0 m : Mem} {im : Img} (u : Usable m0 im) {v : Int → Int → Int → Option Byte}
    {x y : Int} (hx : 0 ≤ x) (hw : x < im.width) (hy : 0 ≤ y) (hh : y < im.height) {l : List Byte}
    {q : Int} (hq : 0 ≤ q) (hl : q + (l.length : Int) ≤ im.bytespp)
    (hv : ∀ i : Nat, i < l.length → v x y (q + i) = l[i]?)
    (hi : Inv (Owns im) m0 m) :
    ∃ m', store m (At im x y q) l = some m' ∧
      Eff (fun b => At im x y q ≤ b ∧ b < At im x y q + l.length) (Want im v) m m' := by
  have hin : ∀ i : Nat, i < l.length → Inside im x y (q + i) := fun i h =>
    ⟨hx, hw, hy, hh, by omega, by omega⟩
  have e : ∀ i : Nat, At im x y q + i = At im x y (q + i) := fun i => by unfold At; omega
  exact store_eff (R := Want im v) l _ m
    (fun i h => hi.mapped u _ ⟨x, y, q + i, hin i h, e i⟩)
    (fun i h => ⟨by rw [List.getElem?_eq_getElem h]; simp, x, y, q + i, hin i h, e i, (hv i h).symm⟩)

theorem bytes4_length (v : UInt32) : (bytes4 v).length = 4 := rfl

theorem bytes2_length (v : UInt16) : (bytes2 v).length = 2 := rfl

/-- Words in memory that are the same give the same number. -/
theorem word_congr {m m' : Mem} {a : Int} (h : ∀ i : Nat, i < 4 → m (a + i) = m' (a + i)) :
    word m a = word m' a := by
  have : load m a 4 = load m' a 4 := by
    have h0 := h 0 (by omega)
    have h1 := h 1 (by omega)
    have h2 := h 2 (by omega)
    have h3 := h 3 (by omega)
    simp only [load]
    simp at h0 h1 h2 h3
    have e2 : a + 1 + 1 = a + 2 := by omega
    have e3 : a + 1 + 1 + 1 = a + 3 := by omega
    rw [e3, e2, h0, h1, h2, h3]
  unfold word
  rw [this]

theorem word_some {m : Mem} {a : Int} (h : ∀ i : Nat, i < 4 → m (a + i) ≠ none) :
    ∃ w, word m a = some w := by
  obtain ⟨l, h1, h2, h3⟩ := load_some 4 a h
  match l, h2 with
  | [b0, b1, b2, b3], _ => exact ⟨_, by unfold word; rw [h1]⟩

end Verif.Image
