import Verif.Stream.Model
import Verif.Stream.Spec
/-! # Helper lemmas for streams -/
namespace Verif.Stream
open Verif

/-! ## Input streams -/

/-- Bytes held by a list of blocks. -/
def bytesOf (bs : List Block) : List Byte := (bs.map (·.used)).flatten

@[simp] theorem bytesOf_nil : bytesOf [] = [] := rfl
@[simp] theorem bytesOf_cons (b : Block) (bs : List Block) :
    bytesOf (b :: bs) = b.used ++ bytesOf bs := by simp [bytesOf]
@[simp] theorem bytesOf_append (a b : List Block) : bytesOf (a ++ b) = bytesOf a ++ bytesOf b := by
  simp [bytesOf]

/-- Block offsets are consistent and blocks are not over-full. -/
def Off : Nat → List Block → Prop
  | _, [] => True
  | o, b :: bs => b.fileOffset = o ∧ b.used.length ≤ b.size ∧ Off (o + b.used.length) bs

theorem off_append (o : Nat) (a b : List Block) :
    Off o (a ++ b) ↔ Off o a ∧ Off (o + (bytesOf a).length) b := by
  induction a generalizing o with
  | nil => simp [Off]
  | cons x xs ih =>
    simp only [List.cons_append, Off, ih, bytesOf_cons, List.length_append]
    rw [Nat.add_assoc]
    constructor
    · rintro ⟨h1, h2, h3, h4⟩; exact ⟨⟨h1, h2, h3⟩, h4⟩
    · rintro ⟨⟨h1, h2, h3⟩, h4⟩; exact ⟨h1, h2, h3, h4⟩

/-- State invariant of an input stream. -/
structure Inv (s : InS) : Prop where
  off : Off 0 s.chain
  cur : s.cur ≤ s.blk.used.length
  size : 0 < s.blockSize

/-- The stream's logical position. -/
def InS.pos (s : InS) : Nat := s.blk.fileOffset + s.cur

/-- All bytes the stream has seen or will see. -/
def InS.data (s : InS) : List Byte := bytesOf s.chain ++ s.src.flatten

/-- Bytes not yet consumed. -/
def InS.unread (s : InS) : List Byte := s.avail ++ bytesOf s.next ++ s.src.flatten

theorem Inv.blkOffset {s : InS} (h : Inv s) : s.blk.fileOffset = (bytesOf s.prev).length := by
  have := (off_append 0 s.prev (s.blk :: s.next)).mp h.off
  have h2 := this.2.1
  omega

theorem Inv.blkSize {s : InS} (h : Inv s) : s.blk.used.length ≤ s.blk.size := by
  have := (off_append 0 s.prev (s.blk :: s.next)).mp h.off
  exact this.2.2.1

theorem Inv.nextOff {s : InS} (h : Inv s) :
    Off (s.blk.fileOffset + s.blk.used.length) s.next := by
  have := (off_append 0 s.prev (s.blk :: s.next)).mp h.off
  have h2 := this.2.1
  have h3 := this.2.2.2
  rw [h2]; exact h3

theorem Inv.unread_eq {s : InS} (h : Inv s) : s.data.drop s.pos = s.unread := by
  unfold InS.data InS.pos InS.unread InS.avail InS.chain
  rw [h.blkOffset, bytesOf_append, bytesOf_cons]
  rw [List.append_assoc, List.drop_append]
  have h1 : List.drop ((bytesOf s.prev).length + s.cur) (bytesOf s.prev) = [] :=
    List.drop_eq_nil_of_le (by omega)
  have h2 : (bytesOf s.prev).length + s.cur - (bytesOf s.prev).length = s.cur := by omega
  rw [h1, h2, List.nil_append, List.append_assoc, List.drop_append_of_le_length h.cur,
    List.append_assoc]

theorem Inv.pos_le {s : InS} (h : Inv s) : s.pos ≤ s.data.length := by
  unfold InS.data InS.pos InS.chain
  have := h.cur
  rw [h.blkOffset]
  simp only [bytesOf_append, bytesOf_cons, List.length_append]
  omega

/-- Every block of `a` is still there in `b`, with at least as many bytes. -/
def Ext (a b : List Block) : Prop :=
  ∀ (i : Nat) (x : Block), a[i]? = some x →
    ∃ y : Block, b[i]? = some y ∧ y.fileOffset = x.fileOffset ∧ x.used.length ≤ y.used.length

theorem Ext.refl (a : List Block) : Ext a a := fun _ x h => ⟨x, h, rfl, Nat.le_refl _⟩

theorem Ext.trans {a b c : List Block} (h1 : Ext a b) (h2 : Ext b c) : Ext a c := by
  intro i x hx
  obtain ⟨y, hy, e1, l1⟩ := h1 i x hx
  obtain ⟨z, hz, e2, l2⟩ := h2 i y hy
  exact ⟨z, hz, e2.trans e1, Nat.le_trans l1 l2⟩

theorem Ext.append (a b : List Block) : Ext a (a ++ b) := by
  intro i x hx
  have hi : i < a.length := by
    rw [List.getElem?_eq_some_iff] at hx
    exact hx.1
  exact ⟨x, by rw [List.getElem?_append_left hi]; exact hx, rfl, Nat.le_refl _⟩

theorem Ext.last (p : List Block) (x y : Block) (h1 : y.fileOffset = x.fileOffset)
    (h2 : x.used.length ≤ y.used.length) : Ext (p ++ [x]) (p ++ [y]) := by
  intro i z hz
  by_cases hi : i < p.length
  · rw [List.getElem?_append_left hi] at hz
    exact ⟨z, by rw [List.getElem?_append_left hi]; exact hz, rfl, Nat.le_refl _⟩
  · rw [List.getElem?_append_right (by omega)] at hz
    rw [List.getElem?_append_right (by omega)]
    cases hk : i - p.length with
    | zero =>
      rw [hk] at hz
      simp only [List.getElem?_cons_zero, Option.some.injEq] at hz
      subst hz
      exact ⟨y, rfl, h1, h2⟩
    | succ k => rw [hk] at hz; simp at hz

/-- A step that moves no data and does not move the position. -/
structure Same (s s' : InS) : Prop where
  inv : Inv s'
  data : s'.data = s.data
  pos : s'.pos = s.pos
  ext : Ext s.chain s'.chain
  bsz : s'.blockSize = s.blockSize

theorem Same.unread {s s' : InS} (h : Inv s) (hs : Same s s') : s'.unread = s.unread := by
  rw [← h.unread_eq, ← hs.inv.unread_eq, hs.data, hs.pos]

theorem seekBlock_spec (s : InS) (h : Inv s) :
    ∃ s', seekBlock 1 s = some s' ∧ Same s s' ∧ s'.src = s.src ∧ s'.eof = s.eof ∧
      (1 ≤ s'.avail.length ∨ (s'.next = [] ∧ s'.cur < s'.blk.size)) := by
  obtain ⟨src, bsz, prev, blk, next, cur, eof⟩ := s
  induction next generalizing prev blk cur with
  | nil =>
    rw [seekBlock.eq_def]
    dsimp only
    by_cases h1 : 1 ≤ blk.used.length - cur
    · rw [if_pos h1]
      exact ⟨_, rfl, ⟨h, rfl, rfl, Ext.refl _, rfl⟩, rfl, rfl,
        Or.inl (by simp only [InS.avail, List.length_drop]; exact h1)⟩
    · rw [if_neg h1]
      have hcur : cur = blk.used.length := by have := h.cur; dsimp only at this; omega
      by_cases h2 : blk.size - cur < 1
      · rw [if_pos h2]
        have hoff := h.off
        refine ⟨_, rfl, ⟨⟨?_, by simp, h.size⟩, ?_, ?_, ?_, rfl⟩, rfl, rfl, Or.inr ⟨rfl, ?_⟩⟩
        · simp only [InS.chain] at hoff ⊢
          rw [off_append] at hoff ⊢
          refine ⟨?_, ?_⟩
          · rw [off_append]
            exact hoff
          · have := hoff.2.1
            simp only [Off, bytesOf_append, bytesOf_cons, bytesOf_nil, List.append_nil,
              List.length_append, List.length_nil, Nat.zero_le, and_true]
            omega
        · simp [InS.data, InS.chain]
        · simp only [InS.pos, Nat.add_zero, hcur]
        · simp only [InS.chain]
          have := Ext.append (prev ++ [blk])
            [⟨max 1 bsz, [], blk.fileOffset + blk.used.length⟩]
          simpa using this
        · dsimp only; omega
      · rw [if_neg h2]
        exact ⟨_, rfl, ⟨h, rfl, rfl, Ext.refl _, rfl⟩, rfl, rfl, Or.inr ⟨rfl, by dsimp only; omega⟩⟩
  | cons b bs ih =>
    rw [seekBlock.eq_def]
    dsimp only
    by_cases h1 : 1 ≤ blk.used.length - cur
    · rw [if_pos h1]
      exact ⟨_, rfl, ⟨h, rfl, rfl, Ext.refl _, rfl⟩, rfl, rfl,
        Or.inl (by simp only [InS.avail, List.length_drop]; exact h1)⟩
    · rw [if_neg h1, if_neg (by omega)]
      have hcur : cur = blk.used.length := by have := h.cur; dsimp only at this; omega
      have hn := h.nextOff
      simp only [Off] at hn
      have hofs : blk.used.length - (b.fileOffset - blk.fileOffset) = 0 := by omega
      rw [hofs, if_pos (Nat.zero_le _)]
      have hinv : Inv ⟨src, bsz, prev ++ [blk], b, bs, 0, eof⟩ := by
        refine ⟨?_, Nat.zero_le _, h.size⟩
        have := h.off
        simp only [InS.chain] at this ⊢
        simpa using this
      obtain ⟨s', e1, e2, e3, e4, e5⟩ := ih (prev ++ [blk]) b 0 hinv
      refine ⟨s', e1, ⟨e2.inv, ?_, ?_, ?_, e2.bsz⟩, e3, e4, e5⟩
      · rw [e2.data]; simp [InS.data, InS.chain]
      · rw [e2.pos]; simp only [InS.pos]; omega
      · have := e2.ext
        simpa [InS.chain] using this

theorem readSome_clean (cap : Nat) (src : Source) (hcap : 0 < cap) (h : ∀ c ∈ src, c ≠ []) :
    (∀ c ∈ (readSome cap src).2, c ≠ []) ∧ (readSome cap src).1.length ≤ cap ∧
    ((readSome cap src).1 = [] → src = []) := by
  cases src with
  | nil => simp [readSome]
  | cons c cs =>
    simp only [readSome]
    split
    · rename_i hc
      exact ⟨fun d hd => h d (by simp [hd]), hc, fun he => absurd he (h c (by simp))⟩
    · rename_i hc
      refine ⟨?_, by rw [List.length_take]; omega, ?_⟩
      · intro d hd
        simp only [List.mem_cons] at hd
        rcases hd with rfl | hd
        · intro he
          have := congrArg List.length he
          rw [List.length_drop, List.length_nil] at this
          omega
        · exact h d (by simp [hd])
      · intro he
        have := congrArg List.length he
        simp only [List.length_take, List.length_nil] at this
        omega

/-- The pipe never returns nothing before its end. -/
def Clean (src : Source) : Prop := ∀ c ∈ src, c ≠ []

theorem fill_spec (n : Nat) (s : InS) (h : Inv s) (hc : Clean s.src)
    (hroom : n ≤ s.blk.size - s.cur) (hnext : n ≤ s.avail.length ∨ s.next = []) :
    Same s (fill n s) ∧ Clean (fill n s).src ∧ (fill n s).prev = s.prev ∧
      ((n ≤ (fill n s).avail.length ∧ (fill n s).eof = s.eof) ∨
        ((fill n s).avail.length < n ∧ (fill n s).next = [] ∧ (fill n s).src = [] ∧
          (fill n s).eof = true)) := by
  induction hl : s.src.flatten.length using Nat.strongRecOn generalizing s with
  | ind l ih =>
    rw [fill.eq_def]
    by_cases h1 : s.blk.used.length - s.cur ≥ n
    · rw [if_pos h1]
      exact ⟨⟨h, rfl, rfl, Ext.refl _, rfl⟩, hc, rfl,
        Or.inl ⟨by simp only [InS.avail, List.length_drop]; exact h1, rfl⟩⟩
    · rw [if_neg h1]
      have hlt : s.avail.length < n := by simp only [InS.avail, List.length_drop]; omega
      have hnx : s.next = [] := by
        rcases hnext with hn | hn
        · omega
        · exact hn
      have hcap : 0 < s.blk.size - s.blk.used.length := by
        have := h.blkSize; have := h.cur; omega
      obtain ⟨r1, r2, r3⟩ := readSome_clean (s.blk.size - s.blk.used.length) s.src hcap hc
      have hfl := readSome_flatten (s.blk.size - s.blk.used.length) s.src
      dsimp only
      split
      · rename_i hr
        have hs := r3 hr
        have h2 : (readSome (s.blk.size - s.blk.used.length) s.src).2 = [] := by
          rw [hs]; rfl
        rw [h2]
        refine ⟨⟨⟨h.off, h.cur, h.size⟩, ?_, rfl, Ext.refl _, rfl⟩, ?_, rfl, Or.inr ⟨?_, hnx, rfl, rfl⟩⟩
        · simp only [InS.data, InS.chain, hs]
        · intro c hcc; simp at hcc
        · exact hlt
      · rename_i hr
        have hflen := congrArg List.length hfl
        rw [List.length_append] at hflen
        have hr' : (readSome (s.blk.size - s.blk.used.length) s.src).1.length ≠ 0 :=
          fun he => hr (List.length_eq_zero_iff.mp he)
        generalize hrd : readSome (s.blk.size - s.blk.used.length) s.src = r at *
        let s1 : InS := { s with src := r.2, blk := { s.blk with used := s.blk.used ++ r.1 } }
        have hinv1 : Inv s1 := by
          refine ⟨?_, ?_, h.size⟩
          · have := h.off
            simp only [InS.chain, hnx, s1] at this ⊢
            rw [off_append] at this ⊢
            refine ⟨this.1, this.2.1, ?_, trivial⟩
            simp only [List.length_append]
            have := h.blkSize
            omega
          · simp only [s1, List.length_append]
            have := h.cur; omega
        have hih := ih r.2.flatten.length (by omega) s1 hinv1 r1 hroom (Or.inr hnx) rfl
        obtain ⟨i1, i2, i3, i4⟩ := hih
        have hsame : Same s s1 := by
          refine ⟨hinv1, ?_, rfl, ?_, rfl⟩
          · simp only [InS.data, InS.chain, hnx, s1, bytesOf_append, bytesOf_cons, bytesOf_nil,
              List.append_nil]
            rw [← hfl]
            simp
          · simp only [InS.chain, hnx, s1]
            exact Ext.last _ _ _ rfl (by simp)
        exact ⟨⟨i1.inv, i1.data.trans hsame.data, i1.pos.trans hsame.pos, hsame.ext.trans i1.ext,
          i1.bsz.trans hsame.bsz⟩, i2, i3, i4⟩

theorem tryMake_one (s : InS) (h : Inv s) (hc : Clean s.src) :
    ∃ k s', tryMake 1 s = some (k, s') ∧ Same s s' ∧ Clean s'.src ∧
      ((0 < k ∧ s'.avail ≠ [] ∧ s'.eof = s.eof) ∨
        (k = 0 ∧ s'.avail = [] ∧ s'.next = [] ∧ s'.src = [] ∧ s'.eof = true)) := by
  unfold tryMake
  by_cases h1 : s.avail.length < 1
  · rw [if_pos h1]
    obtain ⟨s1, e1, e2, e3, e4, e5⟩ := seekBlock_spec s h
    rw [e1]
    have hroom : 1 ≤ s1.blk.size - s1.cur := by
      rcases e5 with e5 | e5
      · have := e2.inv.blkSize
        simp only [InS.avail, List.length_drop] at e5
        omega
      · omega
    have hnext : 1 ≤ s1.avail.length ∨ s1.next = [] := by
      rcases e5 with e5 | e5
      · exact Or.inl e5
      · exact Or.inr e5.1
    obtain ⟨f1, f2, _, f3⟩ := fill_spec 1 s1 e2.inv (by rw [e3]; exact hc) hroom hnext
    refine ⟨_, _, rfl, ⟨f1.inv, f1.data.trans e2.data, f1.pos.trans e2.pos, e2.ext.trans f1.ext,
      f1.bsz.trans e2.bsz⟩, f2, ?_⟩
    rcases f3 with f3 | f3
    · refine Or.inl ⟨f3.1, ?_, by rw [f3.2, e4]⟩
      intro he
      rw [he] at f3
      simp at f3
    · have hz : (fill 1 s1).avail.length = 0 := by have := f3.1; omega
      exact Or.inr ⟨hz, List.length_eq_zero_iff.mp hz, f3.2.1, f3.2.2.1, f3.2.2.2⟩
  · rw [if_neg h1]
    refine ⟨1, s, rfl, ⟨h, rfl, rfl, Ext.refl _, rfl⟩, hc, Or.inl ⟨by omega, ?_, rfl⟩⟩
    intro he
    rw [he] at h1
    simp at h1

theorem unread_nil_of {s : InS} (h1 : s.avail = []) (h2 : s.next = []) (h3 : s.src = []) :
    s.unread = [] := by
  simp [InS.unread, h1, h2, h3]

/-- Moving the read position forward inside the current block. -/
theorem advance_same (s : InS) (h : Inv s) (m : Nat) (hm : m ≤ s.avail.length) :
    Inv { s with cur := s.cur + m } ∧ ({ s with cur := s.cur + m } : InS).data = s.data ∧
    ({ s with cur := s.cur + m } : InS).pos = s.pos + m ∧
    ({ s with cur := s.cur + m } : InS).chain = s.chain := by
  refine ⟨⟨h.off, ?_, h.size⟩, rfl, ?_, rfl⟩
  · simp only [InS.avail, List.length_drop] at hm
    have := h.cur
    dsimp only
    omega
  · simp only [InS.pos]; omega

/-- A step that moves no data and moves the position forward by `m`. -/
structure Adv (m : Nat) (s s' : InS) : Prop where
  inv : Inv s'
  data : s'.data = s.data
  pos : s'.pos = s.pos + m
  ext : Ext s.chain s'.chain
  bsz : s'.blockSize = s.blockSize
  clean : Clean s'.src

theorem avail_prefix (s : InS) (m : Nat) (hm : m ≤ s.avail.length) :
    s.unread.take m = s.avail.take m := by
  unfold InS.unread
  rw [List.append_assoc, List.take_append_of_le_length hm]

theorem readLoop_spec (fuel n : Nat) (s : InS) (acc : List Byte) (hf : n ≤ fuel) (h : Inv s)
    (hc : Clean s.src) :
    ∃ s', (n ≤ s.unread.length ∧ Adv n s s' ∧ s'.eof = s.eof ∧
        readLoop fuel n s acc = some (true, acc ++ s.unread.take n, s')) ∨
      (s.unread.length < n ∧ Adv s.unread.length s s' ∧ s'.eof = true ∧
        readLoop fuel n s acc = some (false,
          acc ++ (s.unread ++ List.replicate (n - s.unread.length) 0), s')) := by
  induction fuel generalizing n s acc with
  | zero =>
    have : n = 0 := by omega
    subst this
    exact ⟨s, Or.inl ⟨Nat.zero_le _, ⟨h, rfl, rfl, Ext.refl _, rfl, hc⟩, rfl, by
      simp [readLoop]⟩⟩
  | succ fuel ih =>
    cases n with
    | zero =>
      exact ⟨s, Or.inl ⟨Nat.zero_le _, ⟨h, rfl, rfl, Ext.refl _, rfl, hc⟩, rfl, by
        simp [readLoop]⟩⟩
    | succ n =>
      obtain ⟨k, s1, e1, e2, e3, e4⟩ := tryMake_one s h hc
      have hun := Same.unread h e2
      simp only [readLoop, e1]
      rcases e4 with ⟨hk, hav, heof⟩ | ⟨hk, hav, hnx, hsrc, heof⟩
      · rw [if_neg (by omega)]
        have hpos : 0 < s1.avail.length := List.length_pos_iff.mpr hav
        generalize hm : min (n + 1) s1.avail.length = m
        have hm1 : 1 ≤ m := by omega
        have hm2 : m ≤ s1.avail.length := by omega
        have hm3 : m ≤ n + 1 := by omega
        obtain ⟨a1, a2, a3, a4⟩ := advance_same s1 e2.inv m hm2
        have hun2 : ({ s1 with cur := s1.cur + m } : InS).unread = s.unread.drop m := by
          rw [← a1.unread_eq, a2, a3, e2.data, e2.pos, ← List.drop_drop, h.unread_eq]
        have htake : s1.avail.take m = s.unread.take m := by
          rw [← hun]; exact (avail_prefix s1 m hm2).symm
        have hmle : m ≤ s.unread.length := by
          rw [← hun]
          simp only [InS.unread, List.length_append]
          omega
        obtain ⟨s', hs'⟩ := ih (n + 1 - m) { s1 with cur := s1.cur + m } (acc ++ s1.avail.take m)
          (by omega) a1 e3
        refine ⟨s', ?_⟩
        rw [hun2] at hs'
        simp only [List.length_drop] at hs'
        have hext : Ext s.chain ({ s1 with cur := s1.cur + m } : InS).chain := e2.ext
        rcases hs' with ⟨i1, i2, i3, i4⟩ | ⟨i1, i2, i3, i4⟩
        · refine Or.inl ⟨by omega, ⟨i2.inv, ?_, ?_, hext.trans i2.ext, ?_, i2.clean⟩, ?_, ?_⟩
          · rw [i2.data, a2, e2.data]
          · rw [i2.pos, a3, e2.pos]; omega
          · rw [i2.bsz]; exact e2.bsz
          · rw [i3]; exact heof
          · rw [i4, htake, List.append_assoc]
            congr 3
            have e : n + 1 = m + (n + 1 - m) := by omega
            conv => rhs; rw [e, List.take_add]
        · refine Or.inr ⟨by omega, ⟨i2.inv, ?_, ?_, hext.trans i2.ext, ?_, i2.clean⟩, i3, ?_⟩
          · rw [i2.data, a2, e2.data]
          · rw [i2.pos, a3, e2.pos]; omega
          · rw [i2.bsz]; exact e2.bsz
          · rw [i4, htake]
            have e1 : n + 1 - m - (s.unread.length - m) = n + 1 - s.unread.length := by omega
            have e2 : s.unread.take m ++ (s.unread.drop m ++
                List.replicate (n + 1 - s.unread.length) 0) =
                s.unread ++ List.replicate (n + 1 - s.unread.length) 0 := by
              rw [← List.append_assoc, List.take_append_drop]
            rw [e1, List.append_assoc, e2]
      · rw [if_pos hk]
        have h0 : s.unread = [] := by rw [← hun]; exact unread_nil_of hav hnx hsrc
        refine ⟨s1, Or.inr ⟨by rw [h0]; simp, ⟨e2.inv, e2.data, ?_, e2.ext, e2.bsz, e3⟩, heof, ?_⟩⟩
        · rw [h0, e2.pos]; rfl
        · rw [h0]; rfl

theorem skipLoop_spec (fuel n : Nat) (s : InS) (hf : n ≤ fuel) (h : Inv s) (hc : Clean s.src) :
    ∃ s', (n ≤ s.unread.length ∧ Adv n s s' ∧ s'.eof = s.eof ∧
        skipLoop fuel n s = some (true, s')) ∨
      (s.unread.length < n ∧ Adv s.unread.length s s' ∧ s'.eof = true ∧
        skipLoop fuel n s = some (false, s')) := by
  induction fuel generalizing n s with
  | zero =>
    have : n = 0 := by omega
    subst this
    exact ⟨s, Or.inl ⟨Nat.zero_le _, ⟨h, rfl, rfl, Ext.refl _, rfl, hc⟩, rfl, by simp [skipLoop]⟩⟩
  | succ fuel ih =>
    cases n with
    | zero =>
      exact ⟨s, Or.inl ⟨Nat.zero_le _, ⟨h, rfl, rfl, Ext.refl _, rfl, hc⟩, rfl, by
        simp [skipLoop]⟩⟩
    | succ n =>
      obtain ⟨k, s1, e1, e2, e3, e4⟩ := tryMake_one s h hc
      have hun := Same.unread h e2
      simp only [skipLoop, e1]
      rcases e4 with ⟨hk, hav, heof⟩ | ⟨hk, hav, hnx, hsrc, heof⟩
      · rw [if_neg (by omega)]
        have hpos : 0 < s1.avail.length := List.length_pos_iff.mpr hav
        generalize hm : min (n + 1) s1.avail.length = m
        have hm1 : 1 ≤ m := by omega
        have hm2 : m ≤ s1.avail.length := by omega
        have hm3 : m ≤ n + 1 := by omega
        obtain ⟨a1, a2, a3, a4⟩ := advance_same s1 e2.inv m hm2
        have hun2 : ({ s1 with cur := s1.cur + m } : InS).unread = s.unread.drop m := by
          rw [← a1.unread_eq, a2, a3, e2.data, e2.pos, ← List.drop_drop, h.unread_eq]
        have hmle : m ≤ s.unread.length := by
          rw [← hun]
          simp only [InS.unread, List.length_append]
          omega
        obtain ⟨s', hs'⟩ := ih (n + 1 - m) { s1 with cur := s1.cur + m } (by omega) a1 e3
        refine ⟨s', ?_⟩
        rw [hun2] at hs'
        simp only [List.length_drop] at hs'
        have hext : Ext s.chain ({ s1 with cur := s1.cur + m } : InS).chain := e2.ext
        rcases hs' with ⟨i1, i2, i3, i4⟩ | ⟨i1, i2, i3, i4⟩
        · refine Or.inl ⟨by omega, ⟨i2.inv, ?_, ?_, hext.trans i2.ext, ?_, i2.clean⟩, ?_, i4⟩
          · rw [i2.data, a2, e2.data]
          · rw [i2.pos, a3, e2.pos]; omega
          · rw [i2.bsz]; exact e2.bsz
          · rw [i3]; exact heof
        · refine Or.inr ⟨by omega, ⟨i2.inv, ?_, ?_, hext.trans i2.ext, ?_, i2.clean⟩, i3, i4⟩
          · rw [i2.data, a2, e2.data]
          · rw [i2.pos, a3, e2.pos]; omega
          · rw [i2.bsz]; exact e2.bsz
      · rw [if_pos hk]
        have h0 : s.unread = [] := by rw [← hun]; exact unread_nil_of hav hnx hsrc
        refine ⟨s1, Or.inr ⟨by rw [h0]; simp, ⟨e2.inv, e2.data, ?_, e2.ext, e2.bsz, e3⟩, heof, rfl⟩⟩
        rw [h0, e2.pos]; rfl

end Verif.Stream
