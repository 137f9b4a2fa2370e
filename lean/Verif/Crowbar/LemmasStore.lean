import Verif.Crowbar.SpecStore
import Verif.Crowbar.PropsTok
import Verif.Label.Props

/-!
# The token store — lemmas
-/

namespace Verif.Crowbar
open Verif

theorem byteTy_tyByte (ty : TokTy) : byteTy (tyByte ty) = some ty := by
  cases ty <;> decide

/-- A stored token. -/
structure Ent where
  off : Nat
  ty : TokTy
  label : Nat

/-- The bytes of a stored token. -/
def entBytes (base : Nat) (e : Ent) : List Byte :=
  Label.encodeValue (e.off - base) ++ tyByte e.ty :: (if hasLabel e.ty then Label.encodeValue e.label else [])

theorem entBytes_len {base : Nat} {e : Ent} (h1 : e.off < 2 ^ 32) (h2 : e.label < 2 ^ 32) :
    2 ≤ (entBytes base e).length ∧ (entBytes base e).length ≤ 11 := by
  have a := Label.C06_varint_length (e.off - base) (by omega)
  have b := Label.C06_varint_length e.label h2
  unfold entBytes
  rw [List.length_append, List.length_cons]
  split
  · omega
  · simp only [List.length_nil]; omega

/-- The table after a token at `idx` with file offset `off` was stored. -/
def grown (t : List Nat) (idx off : Nat) : List Nat := t ++ List.replicate (idx / 256 + 1 - t.length) off

/-- `Lay es d t`: the tokens `es` are stored as the bytes `d` with the table `t`. -/
inductive Lay : List Ent → List Byte → List Nat → Prop
  | nil : Lay [] [] []
  | snoc {es : List Ent} {d : List Byte} {t : List Nat} {e : Ent} {base : Nat} : Lay es d t →
      (grown t d.length e.off)[d.length / 256]? = some base → base ≤ e.off → e.off < 2 ^ 32 → e.label < 2 ^ 32 →
      (∀ x ∈ es, x.off < e.off) → Lay (es ++ [e]) (d ++ entBytes base e) (grown t d.length e.off)

theorem Lay.table_len {es : List Ent} {d : List Byte} {t : List Nat} (h : Lay es d t) :
    t.length ≤ d.length / 256 + 1 ∧ d.length ≤ 256 * t.length + 10 := by
  induction h with
  | nil => simp
  | @snoc es d t e base h h1 h2 h3 h4 h5 ih =>
    have := entBytes_len (base := base) h3 h4
    simp only [grown, List.length_append, List.length_replicate]
    omega

theorem Lay.table_off {es : List Ent} {d : List Byte} {t : List Nat} (h : Lay es d t) :
    ∀ x ∈ t, ∃ e ∈ es, x = e.off := by
  induction h with
  | nil => simp
  | @snoc es d t e base h h1 h2 h3 h4 h5 ih =>
    intro x hx
    rcases List.mem_append.mp hx with hx | hx
    · obtain ⟨e', h6, h7⟩ := ih x hx
      exact ⟨e', List.mem_append.mpr (.inl h6), h7⟩
    · rw [List.mem_replicate] at hx
      exact ⟨e, by simp, hx.2⟩

theorem Lay.bytes_len {es : List Ent} {d : List Byte} {t : List Nat} (h : Lay es d t) :
    d.length ≤ 11 * es.length := by
  induction h with
  | nil => simp
  | @snoc es d t e base h h1 h2 h3 h4 h5 ih =>
    have := entBytes_len (base := base) h3 h4
    simp only [List.length_append, List.length_cons, List.length_nil]
    omega

theorem snoc_inj {es es' : List α} {e e' : α} (h : es ++ [e] = es' ++ [e']) : es = es' ∧ e = e' := by
  have h1 := congrArg List.getLast? h
  have h2 := congrArg List.dropLast h
  simp at h1 h2
  exact ⟨h2, h1⟩

/-- The store around one of its tokens. -/
theorem Lay.split {es : List Ent} {d : List Byte} {t : List Nat} (h : Lay es d t) :
    ∀ (es1 : List Ent) (e : Ent) (es2 : List Ent), es = es1 ++ e :: es2 →
      ∃ d1 t1 base r u, Lay es1 d1 t1 ∧ (grown t1 d1.length e.off)[d1.length / 256]? = some base ∧ base ≤ e.off ∧
        e.off < 2 ^ 32 ∧ e.label < 2 ^ 32 ∧ (∀ x ∈ es1, x.off < e.off) ∧ d = d1 ++ entBytes base e ++ r ∧
        t = grown t1 d1.length e.off ++ u ∧ (es2 = [] → r = [] ∧ u = []) := by
  induction h with
  | nil => intro es1 e es2 h; simp at h
  | @snoc es d t e' base h h1 h2 h3 h4 h5 ih =>
    intro es1 e es2 he
    rcases List.eq_nil_or_concat es2 with e2 | ⟨es3, e3, e2⟩
    · subst e2
      obtain ⟨a, b⟩ := snoc_inj he
      subst a b
      exact ⟨d, t, base, [], [], h, h1, h2, h3, h4, h5, by simp, by simp, by simp⟩
    · subst e2
      have he' : es ++ [e'] = (es1 ++ e :: es3) ++ [e3] := by simpa using he
      obtain ⟨a, b⟩ := snoc_inj he'
      obtain ⟨d1, t1, base1, r, u, g1, g2, g3, g4, g5, g6, g7, g8, -⟩ := ih es1 e es3 a
      refine ⟨d1, t1, base1, r ++ entBytes base e', u ++ List.replicate (d.length / 256 + 1 - t.length) e'.off, g1, g2,
        g3, g4, g5, g6, by rw [g7]; simp, ?_, by simp⟩
      rw [grown, ← List.append_assoc, ← g8]

/-- The next token in the store. -/
theorem Lay.next {es : List Ent} {d : List Byte} {t : List Nat} (h : Lay es d t) {es1 : List Ent} {e e2 : Ent}
    {es3 : List Ent} (he : es = es1 ++ e :: e2 :: es3) :
    ∃ d1 t1 base base2 r u, Lay es1 d1 t1 ∧ (grown t1 d1.length e.off)[d1.length / 256]? = some base ∧ base ≤ e.off ∧
        e.off < 2 ^ 32 ∧ e.label < 2 ^ 32 ∧ (∀ x ∈ es1, x.off < e.off) ∧
        d = d1 ++ entBytes base e ++ (entBytes base2 e2 ++ r) ∧ base2 ≤ e2.off ∧ e2.off < 2 ^ 32 ∧ e.off < e2.off ∧
        t = grown (grown t1 d1.length e.off) (d1 ++ entBytes base e).length e2.off ++ u ∧
        (grown (grown t1 d1.length e.off) (d1 ++ entBytes base e).length e2.off)[(d1 ++ entBytes base e).length / 256]? =
          some base2 := by
  obtain ⟨dd, tt, base2, r, u, g1, g2, g3, g4, g5, g6, g7, g8, -⟩ := h.split (es1 ++ [e]) e2 es3 (by simp [he])
  obtain ⟨d1, t1, base, r', u', f1, f2, f3, f4, f5, f6, f7, f8, f9⟩ := g1.split es1 e [] rfl
  obtain ⟨rfl, rfl⟩ := f9 rfl
  rw [List.append_nil] at f7 f8
  subst f7 f8
  exact ⟨d1, t1, base, base2, r, u, f1, f2, f3, f4, f5, f6, by rw [g7]; simp, g3, g4, g6 e (by simp), g8, g2⟩

theorem decode_ent (base : Nat) (e : Ent) (r : List Byte) (h1 : e.off < 2 ^ 32) :
    Label.decodeValue (entBytes base e ++ r) =
      some (e.off - base, tyByte e.ty :: ((if hasLabel e.ty then Label.encodeValue e.label else []) ++ r)) := by
  unfold entBytes
  rw [List.append_assoc, Label.C06_varint_roundtrip _ _ (by omega)]
  rfl

theorem readLabel_ent (e : Ent) (r : List Byte) (h2 : e.label < 2 ^ 32) (h3 : hasLabel e.ty = false → e.label = 0) :
    readLabel e.ty ((if hasLabel e.ty then Label.encodeValue e.label else []) ++ r) = some (e.label, r) := by
  unfold readLabel
  by_cases h : hasLabel e.ty = true
  · rw [if_pos h, if_pos h, Label.C06_varint_roundtrip _ _ h2]
  · rw [if_neg h, if_neg h, h3 (by simpa using h)]; rfl

theorem shr8 (n : Nat) : n >>> 8 = n / 256 := by rw [Nat.shiftRight_eq_div_pow]

/-- Looking up a stored token: everything but the end of its text. -/
theorem expand_ent (st : Store) (left : List Byte) (d1 : List Byte) (base : Nat) (e : Ent) (r : List Byte)
    (hd : st.data = d1 ++ entBytes base e ++ r) (ht : st.table[d1.length / 256]? = some base) (hb : base ≤ e.off)
    (h1 : e.off < 2 ^ 32) (h2 : e.label < 2 ^ 32) (h3 : hasLabel e.ty = false → e.label = 0) :
    expandTok st left d1.length =
      match endOffset st d1.length r with
      | none => none
      | some x =>
        match textOf st e.off x with
        | none => none
        | some text => some (⟨d1.length, e.off, e.ty, e.label, text⟩, (entBytes base e).length) := by
  have hl := entBytes_len (base := base) h1 h2
  have hlen : st.data.length = d1.length + (entBytes base e).length + r.length := by
    rw [hd]; simp only [List.length_append]
  unfold expandTok
  rw [if_pos (by omega), if_neg (by omega), shr8, ht, hd, List.append_assoc, List.drop_left, decode_ent base e r h1]
  dsimp only
  rw [show u32 (base + (e.off - base)) = e.off by rw [show base + (e.off - base) = e.off by omega]; exact u32_of_lt h1]
  unfold expandRest
  dsimp only
  rw [byteTy_tyByte]
  dsimp only
  rw [readLabel_ent e r h2 h3]
  dsimp only
  rw [show st.data.length - d1.length - r.length = (entBytes base e).length by omega]
  cases endOffset st d1.length r with
  | none => rfl
  | some x =>
    dsimp only
    cases textOf st e.off x <;> rfl

theorem get_left {t u : List Nat} {i b : Nat} (h : t[i]? = some b) : (t ++ u)[i]? = some b := by
  rw [List.getElem?_append_left (List.getElem?_eq_some_iff.mp h).1]; exact h

/-- Looking up the token stored last. -/
theorem expand_last (st : Store) (left : List Byte) {es1 : List Ent} {e : Ent} {d1 : List Byte} {t1 : List Nat}
    {base : Nat} (hg : (grown t1 d1.length e.off)[d1.length / 256]? = some base)
    (hd : st.data = d1 ++ entBytes base e) (ht : st.table = grown t1 d1.length e.off) (hb : base ≤ e.off)
    (h1 : e.off < 2 ^ 32) (h2 : e.label < 2 ^ 32) (h3 : hasLabel e.ty = false → e.label = 0) (hc : e.off ≤ st.cur)
    (hs : st.cur ≤ st.src.length) :
    expandTok st left d1.length =
      some (⟨d1.length, e.off, e.ty, e.label, (st.src.drop e.off).take (st.cur - e.off)⟩, (entBytes base e).length) := by
  rw [expand_ent st left d1 base e [] (by rw [hd]; simp) (by rw [ht]; exact hg) hb h1 h2 h3]
  simp only [endOffset, textOf, hc, hs, and_self, if_true]

/-- Looking up a token that another one follows. -/
theorem expand_mid (st : Store) (left : List Byte) {es es1 es3 : List Ent} {e e2 : Ent} (h : Lay es st.data st.table)
    (he : es = es1 ++ e :: e2 :: es3) (h3 : hasLabel e.ty = false → e.label = 0) (hc : e2.off ≤ st.src.length) :
    ∃ d1 t1 base, Lay es1 d1 t1 ∧ Lay (es1 ++ [e]) (d1 ++ entBytes base e) (grown t1 d1.length e.off) ∧
      expandTok st left d1.length =
        (if (d1 ++ entBytes base e).length / 256 = (d1.length + 1) / 256 then
          some (⟨d1.length, e.off, e.ty, e.label, (st.src.drop e.off).take (e2.off - e.off)⟩, (entBytes base e).length)
        else none) ∧ e.off < e2.off := by
  obtain ⟨d1, t1, base, base2, r, u, g1, g2, g3, g4, g5, g6, g7, g8, g9, g10, g11, g12⟩ := h.next he
  have hl := entBytes_len (base := base) g4 g5
  have hlay : Lay (es1 ++ [e]) (d1 ++ entBytes base e) (grown t1 d1.length e.off) := .snoc g1 g2 g3 g4 g5 g6
  refine ⟨d1, t1, base, g1, hlay, ?_, g10⟩
  have htl := g1.table_len
  have htl2 := hlay.table_len
  have htab : st.table[d1.length / 256]? = some base := by rw [g11]; exact get_left (get_left g2)
  rw [expand_ent st left d1 base e _ g7 htab g3 g4 g5 h3]
  have hne : ∃ b bs, entBytes base2 e2 ++ r = b :: bs := by
    cases hx : entBytes base2 e2 ++ r with
    | nil => simp [entBytes] at hx
    | cons b bs => exact ⟨b, bs, rfl⟩
  obtain ⟨b, bs, hbs⟩ := hne
  have hend : endOffset st d1.length (entBytes base2 e2 ++ r) =
      match Label.decodeValue (entBytes base2 e2 ++ r), st.table[(d1.length + 1) / 256]? with
      | some (d, _), some base => some (u32 (base + d))
      | _, _ => none := by
    rw [hbs, endOffset.eq_def, shr8]
    rfl
  rw [hend, decode_ent _ _ _ g9]
  rw [List.length_append] at htl2 g11 g12 ⊢
  by_cases hx : (d1.length + (entBytes base e).length) / 256 = (d1.length + 1) / 256
  · rw [if_pos hx, ← hx, g11, get_left g12]
    dsimp only
    rw [show u32 (base2 + (e2.off - base2)) = e2.off by
      rw [show base2 + (e2.off - base2) = e2.off by omega]; exact u32_of_lt g9]
    unfold textOf
    rw [if_pos ⟨by omega, hc⟩]
  · rw [if_neg hx]
    have e1 : (d1.length + 1) / 256 = d1.length / 256 := by omega
    have e2' : (d1.length + (entBytes base e).length) / 256 = d1.length / 256 + 1 := by omega
    -- the table had to be extended for the next token
    have hgl : (grown t1 d1.length e.off).length = d1.length / 256 + 1 := by
      simp only [grown, List.length_append, List.length_replicate] at htl2 ⊢
      omega
    have hb2 : base2 = e2.off := by
      rw [e2', grown, e2', hgl, show d1.length / 256 + 1 + 1 - (d1.length / 256 + 1) = 1 by omega,
        List.getElem?_append_right (by omega), hgl, Nat.sub_self] at g12
      simpa using g12.symm
    rw [e1, htab]
    dsimp only
    rw [hb2, Nat.sub_self, Nat.add_zero, u32_of_lt (by omega : base < 2 ^ 32)]
    -- the token is not the first of its block
    have hlt : base < e.off := by
      have hin : t1.length = d1.length / 256 + 1 := by omega
      rw [grown, hin, Nat.sub_self, List.replicate_zero, List.append_nil] at g2
      obtain ⟨x, hx1, hx2⟩ := g1.table_off base (List.mem_of_getElem? g2)
      rw [hx2]; exact g6 x hx1
    unfold textOf
    rw [if_neg (by omega)]

end Verif.Crowbar
