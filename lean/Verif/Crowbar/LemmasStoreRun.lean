import Verif.Crowbar.LemmasStore

/-!
# The token store — it gives the tokens of the source
-/

namespace Verif.Crowbar
open Verif

theorem Lay.snoc_inv {es : List Ent} {d : List Byte} {t : List Nat} (h : Lay es d t) {es1 : List Ent} {e : Ent}
    (he : es = es1 ++ [e]) :
    ∃ d1 t1 base, Lay es1 d1 t1 ∧ (grown t1 d1.length e.off)[d1.length / 256]? = some base ∧ base ≤ e.off ∧
      e.off < 2 ^ 32 ∧ e.label < 2 ^ 32 ∧ (∀ x ∈ es1, x.off < e.off) ∧ d = d1 ++ entBytes base e ∧
      t = grown t1 d1.length e.off := by
  obtain ⟨d1, t1, base, r, u, g1, g2, g3, g4, g5, g6, g7, g8, g9⟩ := h.split es1 e [] he
  obtain ⟨rfl, rfl⟩ := g9 rfl
  exact ⟨d1, t1, base, g1, g2, g3, g4, g5, g6, by simpa using g7, by simpa using g8⟩

/-- How tokens are stored is settled by the tokens. -/
theorem Lay.unique {es : List Ent} {d : List Byte} {t : List Nat} (h : Lay es d t) :
    ∀ {d' : List Byte} {t' : List Nat}, Lay es d' t' → d = d' ∧ t = t' := by
  induction h with
  | nil =>
    intro d' t' h'
    generalize he : ([] : List Ent) = es at h'
    cases h' with
    | nil => exact ⟨rfl, rfl⟩
    | snoc => simp at he
  | @snoc es d t e base h h1 h2 h3 h4 h5 ih =>
    intro d' t' h'
    obtain ⟨d1, t1, base', g1, g2, g3, g4, g5, g6, g7, g8⟩ := h'.snoc_inv rfl
    obtain ⟨rfl, rfl⟩ := ih g1
    rw [h1] at g2
    cases g2
    exact ⟨g7.symm, g8.symm⟩

theorem encode_ok (st : Store) (es : List Ent) (t : XTok) (h : Lay es st.data st.table)
    (hn : st.next = st.data.length) (hi : t.idx = st.data.length) (ho : ∀ x ∈ es, x.off < t.off)
    (h1 : t.off < 2 ^ 32) (h2 : t.label < 2 ^ 32) (hc : es.length ≤ 2 ^ 24) :
    ∃ base, Lay (es ++ [⟨t.off, t.ty, t.label⟩]) (st.data ++ entBytes base ⟨t.off, t.ty, t.label⟩)
        (grown st.table st.data.length t.off) ∧
      encodeTok st t = some { st with
        data := st.data ++ entBytes base ⟨t.off, t.ty, t.label⟩,
        table := grown st.table st.data.length t.off,
        next := (st.data ++ entBytes base ⟨t.off, t.ty, t.label⟩).length } := by
  have hl := h.table_len
  have hb := h.bytes_len
  have hgl : (grown st.table st.data.length t.off).length = st.data.length / 256 + 1 := by
    simp only [grown, List.length_append, List.length_replicate]; omega
  obtain ⟨base, hbase⟩ : ∃ b, (grown st.table st.data.length t.off)[st.data.length / 256]? = some b :=
    ⟨_, List.getElem?_eq_getElem (by omega)⟩
  have hle : base ≤ t.off := by
    have hm := List.mem_of_getElem? hbase
    rcases List.mem_append.mp hm with hm | hm
    · obtain ⟨x, hx1, hx2⟩ := h.table_off base hm
      have := ho x hx1
      omega
    · rw [List.mem_replicate] at hm
      omega
  have hlay : Lay (es ++ [⟨t.off, t.ty, t.label⟩]) (st.data ++ entBytes base ⟨t.off, t.ty, t.label⟩)
      (grown st.table st.data.length t.off) := Lay.snoc (e := ⟨t.off, t.ty, t.label⟩) h hbase hle h1 h2 ho
  refine ⟨base, hlay, ?_⟩
  have hgrow : growTable st.table (t.idx >>> 8) t.off = some (grown st.table st.data.length t.off) := by
    unfold growTable
    rw [hi, shr8]
    rw [grown] at hgl
    rw [if_pos (by rw [hgl]; omega)]
    rfl
  have hlast : (grown st.table st.data.length t.off).getLast? = some base := by
    rw [List.getLast?_eq_getElem?, hgl]; exact hbase
  have hv := Label.C06_varint_length (t.off - base) (by omega)
  have hw : writeCompact st.data (t.off - base) = some (st.data ++ Label.encodeValue (t.off - base)) := by
    unfold writeCompact; rw [if_pos (by omega)]
  have ht : writeType (st.data ++ Label.encodeValue (t.off - base)) t =
      some (st.data ++ entBytes base ⟨t.off, t.ty, t.label⟩) := by
    unfold writeType
    rw [if_pos (by rw [List.length_append]; omega)]
    unfold entBytes
    dsimp only
    by_cases hx : hasLabel t.ty = true
    · rw [if_pos hx, if_pos hx, writeCompact, if_pos (by simp only [List.length_append, List.length_cons, List.length_nil]; omega)]
      simp
    · rw [if_neg hx, if_neg hx]
      simp
  unfold encodeTok
  rw [if_pos hn, hgrow]
  dsimp only
  rw [hlast]
  dsimp only
  rw [if_pos hle, hw]
  dsimp only
  rw [ht]

theorem insert_ok {m : Label.LabelMap} {s : List Byte} (hi : Label.Inv m)
    (hp : m.pool.length + 5 + s.length ≤ 2 ^ 30) :
    ∃ l m', m.insertOrFind s = some (l, m') ∧ Label.Inv m' ∧ Label.EntryAt m'.pool l s ∧
      (∃ ext, m'.pool = m.pool ++ ext) ∧ m'.pool.length ≤ m.pool.length + 5 + s.length ∧ l < 2 ^ 32 := by
  have hg := (Label.C06_varint_length s.length (by omega)).2.2.1
  have key : ∃ l m', m.insertOrFind s = some (l, m') ∧ m'.pool.length ≤ m.pool.length + 5 + s.length := by
    unfold Label.LabelMap.insertOrFind
    split
    · exact ⟨_, _, rfl, by omega⟩
    · dsimp only
      rw [if_pos (by unfold Label.reservedBytes; omega)]
      refine ⟨_, _, rfl, ?_⟩
      dsimp only
      rw [List.length_append, List.length_append, Label.encodeValue_length]
      omega
  obtain ⟨l, m', h1, h2⟩ := key
  obtain ⟨a, b, -, c, -, -⟩ := Label.insert_step hi h1
  refine ⟨l, m', h1, a, b, c, h2, ?_⟩
  obtain ⟨pre, post, e1, e2, -, -⟩ := b
  have := congrArg List.length e1
  simp only [List.length_append] at this
  omega

theorem lex_stop {total : Nat} {nl : Bool} {src : List Byte} {t : Tok} {rest : List Byte}
    (h : lex total nl src = (t, rest)) (he : t.ty = .endOfFile) : t.text = [] ∧ rest = [] ∧ t.off = total := by
  obtain ⟨gap, -, -, h3, h4, -⟩ := C63_token total nl src t rest h
  rw [he] at h3
  obtain ⟨h5, h6⟩ := h3
  exact ⟨h5, h6, by rw [h4, h5, h6]; simp⟩

theorem lex_tok {nl : Bool} {src : List Byte} {cur : Nat} {t : Tok} {rest : List Byte} (hc : cur ≤ src.length)
    (h : lex src.length nl (src.drop cur) = (t, rest)) (he : t.ty ≠ .endOfFile) :
    cur ≤ t.off ∧ t.off + t.text.length = src.length - rest.length ∧ 0 < t.text.length ∧
      src.drop (src.length - rest.length) = rest ∧ (src.drop t.off).take t.text.length = t.text ∧ ¬ Passing t.ty ∧
      rest.length ≤ src.length := by
  obtain ⟨gap, h1, -, h3, h4, -⟩ := C63_token _ nl _ t rest h
  have hlen := congrArg List.length h1
  simp only [List.length_append, List.length_drop] at hlen h4
  have hne : t.text ≠ [] := by
    intro e
    rw [e] at h3
    generalize t.ty = ty at h3 he
    cases ty <;> simp [Shape, Word] at h3 he
  have hp : 0 < t.text.length := List.length_pos_iff.mpr hne
  have hd : ∀ k, src.drop (cur + k) = (gap ++ (t.text ++ rest)).drop k := by
    intro k; rw [← h1, List.drop_drop]
  refine ⟨by omega, by omega, hp, ?_, ?_, ?_, by omega⟩
  · rw [show src.length - rest.length = cur + (gap.length + t.text.length) by omega, hd, ← List.append_assoc,
      ← List.length_append, List.drop_left]
  · rw [show t.off = cur + gap.length by omega, hd, List.drop_left, List.take_left]
  · generalize t.ty = ty at h3 he
    unfold Passing
    cases ty <;> simp [Shape] at h3 he ⊢

theorem strPart_len {x c q : List Byte} (h : StrPart x c q) : c.length + q.length ≤ x.length ∧ ∃ y, x = y ++ q := by
  induction h with
  | quote r => exact ⟨by simp, [], rfl⟩
  | embed r => exact ⟨by simp, [], rfl⟩
  | escaped d h ih =>
    obtain ⟨a, y, rfl⟩ := ih
    exact ⟨by simp only [List.length_cons] at *; omega, 92 :: d :: y, rfl⟩
  | plain d _ _ _ h ih =>
    obtain ⟨a, y, rfl⟩ := ih
    exact ⟨by simp only [List.length_cons] at *; omega, d :: y, rfl⟩

theorem readStr_ok {src : List Byte} {cur : Nat} {ty : TokTy} {text rest : List Byte} (hc : cur < src.length)
    (h : readStr [] (src.drop cur) = some (ty, text, rest)) :
    Passing ty ∧ ty ≠ .endOfFile ∧ (hasLabel ty = true ↔ ty = .stringLiteral) ∧ rest.length ≤ src.length ∧
      src.drop (src.length - rest.length) = rest ∧ cur < src.length - rest.length ∧
      text.length ≤ src.length - rest.length - cur := by
  obtain ⟨c, q, h1, h2, h3⟩ := strPart_of _ _ [] ty text rest (Nat.le_refl _) h
  obtain ⟨hl, y, hy⟩ := strPart_len h1
  have hlen := congrArg List.length hy
  rw [List.length_append] at hlen
  rw [List.length_drop] at hl hlen
  have hd : ∀ k, src.drop (cur + k) = (y ++ q).drop k := by intro k; rw [← hy, List.drop_drop]
  rw [List.nil_append] at h2 h3
  by_cases hcn : c = []
  · obtain ⟨ht, ⟨h4, h5⟩ | ⟨h4, h5⟩⟩ := h2 hcn
    all_goals
      subst h4 ht h5
      simp only [List.length_cons] at hl hlen
      refine ⟨by simp [Passing], by simp, by simp [hasLabel], by omega, ?_, by omega, by simp⟩
    · rw [show src.length - rest.length = cur + (y.length + 1) by omega, hd, ← List.drop_drop, List.drop_left]; rfl
    · rw [show src.length - rest.length = cur + (y.length + 2) by omega, hd, ← List.drop_drop, List.drop_left]; rfl
  · obtain ⟨h4, h5, h6⟩ := h3 hcn
    subst h4 h5 h6
    have := List.length_pos_iff.mpr hcn
    refine ⟨by simp [Passing], by simp, by simp [hasLabel], by omega, ?_, by omega, by omega⟩
    rw [show src.length - q.length = cur + y.length by omega, hd, List.drop_left]

/-- `Kept st es x`: the token `x` is in the store. -/
def Kept (st : Store) (es : List Ent) (x : XTok) : Prop :=
  ∃ es1 e es2 d1 t1, es = es1 ++ e :: es2 ∧ Lay es1 d1 t1 ∧ x.idx = d1.length ∧ x.off = e.off ∧ x.ty = e.ty ∧
    x.label = e.label ∧ (st.src.drop x.off).take x.text.length = x.text ∧
    (es2 = [] → x.off + x.text.length ≤ st.cur) ∧ (∀ e2 es3, es2 = e2 :: es3 → x.off + x.text.length ≤ e2.off)

/-- What holds of the store at any time; `S` are the tokens given so far. -/
structure Held (st : Store) (es : List Ent) (S : List XTok) : Prop where
  lay : Lay es st.data st.table
  cur_le : st.cur ≤ st.src.length
  small : st.src.length ≤ 2 ^ 24
  offs : ∀ e ∈ es, e.off < st.cur
  cnt : es.length ≤ st.cur
  nolab : ∀ e ∈ es, hasLabel e.ty = false → e.label = 0
  linv : Label.Inv st.labels
  pool : st.labels.pool.length ≤ 2 ^ 29 + 6 * st.cur
  seen : ∀ x ∈ S, ¬ Passing x.ty → Kept st es x
  cover : ∀ es1 e es2 d1 t1, es = es1 ++ e :: es2 → Lay es1 d1 t1 → ∃ x ∈ S, ¬ Passing x.ty ∧ x.idx = d1.length
  labs : ∀ x ∈ S, hasLabel x.ty = true → Label.EntryAt st.labels.pool x.label x.text

/-- `x` is the token stored last, and nothing was read since. -/
def IsLast (st : Store) (es : List Ent) (x : XTok) : Prop :=
  ∃ es1 e d1 t1, es = es1 ++ [e] ∧ Lay es1 d1 t1 ∧ x.idx = d1.length ∧ x.off = e.off ∧ x.ty = e.ty ∧
    x.label = e.label ∧ x.text = (st.src.drop x.off).take (st.cur - x.off) ∧ x.off + x.text.length ≤ st.cur

/-- The token put back. -/
def BackOk (st : Store) (es : List Ent) (S : List XTok) (p : Plain) : Prop :=
  (p.back = none ∧ st.next = st.data.length) ∨
    ∃ x t, x ∈ S ∧ p.back = some t ∧ IsLast st es x ∧ st.next = x.idx ∧ Same x t ∧ ¬ Passing x.ty

/-- The token given last. -/
def LastOk (st : Store) (es : List Ent) (S : List XTok) : Option XTok → Option Tok → Prop
  | none, none => True
  | some x, some t => x ∈ S ∧ Same x t ∧ (Passing x.ty → x.idx = st.next) ∧
      (¬ Passing x.ty → IsLast st es x ∧ x.idx ≤ st.next)
  | _, _ => False

/-- The store and the plain tokenizer are at the same place. -/
structure Alike (st : Store) (es : List Ent) (S : List XTok) (p : Plain) (l : Option XTok) (lp : Option Tok) : Prop where
  good : Held st es S
  total : p.total = st.src.length
  src : p.src = st.src.drop st.cur
  back : BackOk st es S p
  last : LastOk st es S l lp

theorem Kept.cur_mono {st : Store} {es : List Ent} {x : XTok} (h : Kept st es x) {st' : Store} (hs : st'.src = st.src)
    (hc : st.cur ≤ st'.cur) : Kept st' es x := by
  obtain ⟨es1, e, es2, d1, t1, h1, h2, h3, h4, h5, h6, h7, h8, h9⟩ := h
  exact ⟨es1, e, es2, d1, t1, h1, h2, h3, h4, h5, h6, by rw [hs]; exact h7, fun h => Nat.le_trans (h8 h) hc, h9⟩

theorem Kept.snoc {st : Store} {es : List Ent} {x : XTok} (h : Kept st es x) {st' : Store} (hs : st'.src = st.src)
    (e' : Ent) (ho : st.cur ≤ e'.off) : Kept st' (es ++ [e']) x := by
  obtain ⟨es1, e, es2, d1, t1, h1, h2, h3, h4, h5, h6, h7, h8, h9⟩ := h
  refine ⟨es1, e, es2 ++ [e'], d1, t1, by rw [h1]; simp, h2, h3, h4, h5, h6, by rw [hs]; exact h7,
    fun h => absurd h (by simp), ?_⟩
  intro e2 es3 he
  cases es2 with
  | nil =>
    simp only [List.nil_append, List.cons.injEq] at he
    rw [← he.1]
    exact Nat.le_trans (h8 rfl) ho
  | cons a b =>
    simp only [List.cons_append, List.cons.injEq] at he
    exact h9 e2 b (by rw [he.1])

/-- A token that is not stored: only the place reached and the labels change. -/
theorem Held.pass {st : Store} {es : List Ent} {S : List XTok} (h : Held st es S) (x : XTok) (cur : Nat)
    (labels : Label.LabelMap) (hx : Passing x.ty) (hc : st.cur ≤ cur) (hs : cur ≤ st.src.length)
    (hl : Label.Inv labels) (hp : labels.pool.length ≤ 2 ^ 29 + 6 * cur) (he : ∃ ext, labels.pool = st.labels.pool ++ ext)
    (hxl : hasLabel x.ty = true → Label.EntryAt labels.pool x.label x.text) :
    Held { st with cur := cur, labels := labels } es (S ++ [x]) where
  lay := h.lay
  cur_le := hs
  small := h.small
  offs e he := Nat.lt_of_lt_of_le (h.offs e he) hc
  cnt := Nat.le_trans h.cnt hc
  nolab := h.nolab
  linv := hl
  pool := hp
  seen y hy hny := by
    rcases List.mem_append.mp hy with hy | hy
    · exact (h.seen y hy hny).cur_mono rfl hc
    · rw [List.mem_singleton] at hy; subst hy; exact absurd hx hny
  cover es1 e es2 d1 t1 h1 h2 := by
    obtain ⟨y, hy, h3⟩ := h.cover es1 e es2 d1 t1 h1 h2
    exact ⟨y, List.mem_append.mpr (.inl hy), h3⟩
  labs y hy hyl := by
    rcases List.mem_append.mp hy with hy | hy
    · obtain ⟨ext, he⟩ := he
      show Label.EntryAt labels.pool y.label y.text
      rw [he]; exact (h.labs y hy hyl).append
    · rw [List.mem_singleton] at hy; subst hy; exact hxl hyl

/-- The token that was given already is given again. -/
theorem Held.again {st : Store} {es : List Ent} {S : List XTok} (h : Held st es S) (x : XTok) (hx : x ∈ S) (n : Nat) :
    Held { st with next := n } es (S ++ [x]) where
  lay := h.lay
  cur_le := h.cur_le
  small := h.small
  offs := h.offs
  cnt := h.cnt
  nolab := h.nolab
  linv := h.linv
  pool := h.pool
  seen y hy hny := by
    rcases List.mem_append.mp hy with hy | hy
    · exact h.seen y hy hny
    · rw [List.mem_singleton] at hy; subst hy; exact h.seen y hx hny
  cover es1 e es2 d1 t1 h1 h2 := by
    obtain ⟨y, hy, h3⟩ := h.cover es1 e es2 d1 t1 h1 h2
    exact ⟨y, List.mem_append.mpr (.inl hy), h3⟩
  labs y hy hyl := by
    rcases List.mem_append.mp hy with hy | hy
    · exact h.labs y hy hyl
    · rw [List.mem_singleton] at hy; subst hy; exact h.labs y hx hyl

theorem Held.next {st : Store} {es : List Ent} {S : List XTok} (h : Held st es S) (n : Nat) :
    Held { st with next := n } es S :=
  ⟨h.lay, h.cur_le, h.small, h.offs, h.cnt, h.nolab, h.linv, h.pool, h.seen, h.cover, h.labs⟩

/-- A new token is stored. -/
theorem Held.store {st : Store} {es : List Ent} {S : List XTok} (h : Held st es S) (x : XTok) (cur : Nat)
    (labels : Label.LabelMap) {base : Nat}
    (hlay : Lay (es ++ [⟨x.off, x.ty, x.label⟩]) (st.data ++ entBytes base ⟨x.off, x.ty, x.label⟩)
      (grown st.table st.data.length x.off))
    (hi : x.idx = st.data.length) (hx : ¬ Passing x.ty) (ho : st.cur ≤ x.off) (ht : 0 < x.text.length)
    (hc : x.off + x.text.length = cur)
    (htx : (st.src.drop x.off).take x.text.length = x.text) (hs : cur ≤ st.src.length)
    (hl : Label.Inv labels) (hp : labels.pool.length ≤ 2 ^ 29 + 6 * cur) (he : ∃ ext, labels.pool = st.labels.pool ++ ext)
    (hxl : hasLabel x.ty = true → Label.EntryAt labels.pool x.label x.text) (hnl : hasLabel x.ty = false → x.label = 0) :
    Held { st with
      cur := cur
      labels := labels
      data := st.data ++ entBytes base ⟨x.off, x.ty, x.label⟩
      table := grown st.table st.data.length x.off
      next := (st.data ++ entBytes base ⟨x.off, x.ty, x.label⟩).length }
      (es ++ [⟨x.off, x.ty, x.label⟩]) (S ++ [x]) where
  lay := hlay
  cur_le := hs
  small := h.small
  offs e he := by
    rcases List.mem_append.mp he with he | he
    · have := h.offs e he
      show e.off < cur
      omega
    · rw [List.mem_singleton] at he; subst he
      show x.off < cur
      omega
  cnt := by
    have := h.cnt
    show _ ≤ cur
    rw [List.length_append]
    simp only [List.length_cons, List.length_nil]
    omega
  nolab e he := by
    rcases List.mem_append.mp he with he | he
    · exact h.nolab e he
    · rw [List.mem_singleton] at he; subst he; exact hnl
  linv := hl
  pool := hp
  seen y hy hny := by
    rcases List.mem_append.mp hy with hy | hy
    · refine (h.seen y hy hny).snoc ?_ ⟨x.off, x.ty, x.label⟩ ho
      rfl
    · rw [List.mem_singleton] at hy; subst hy
      exact ⟨es, _, [], st.data, st.table, rfl, h.lay, hi, rfl, rfl, rfl, htx, fun _ => Nat.le_of_eq hc,
        fun _ _ h => absurd h (by simp)⟩
  cover es1 e es2 d1 t1 h1 h2 := by
    rcases List.eq_nil_or_concat es2 with e2 | ⟨es3, e3, e2⟩
    · subst e2
      obtain ⟨a, b⟩ := snoc_inj h1
      subst a
      obtain ⟨rfl, rfl⟩ := h.lay.unique h2
      exact ⟨x, by simp, hx, hi⟩
    · subst e2
      have he' : es ++ [⟨x.off, x.ty, x.label⟩] = (es1 ++ e :: es3) ++ [e3] := by simpa using h1
      obtain ⟨a, b⟩ := snoc_inj he'
      obtain ⟨y, hy, h3⟩ := h.cover es1 e es3 d1 t1 a h2
      exact ⟨y, List.mem_append.mpr (.inl hy), h3⟩
  labs y hy hyl := by
    rcases List.mem_append.mp hy with hy | hy
    · obtain ⟨ext, he⟩ := he
      show Label.EntryAt labels.pool y.label y.text
      rw [he]; exact (h.labs y hy hyl).append
    · rw [List.mem_singleton] at hy; subst hy; exact hxl hyl

/-- The outcome of asking both tokenizers. -/
def BothOk (S : List XTok) (a : Option (XTok × Store)) (b : Option (Tok × Plain)) : Prop :=
  (a = none ∧ b = none) ∨
    ∃ x st t p es, a = some (x, st) ∧ b = some (t, p) ∧ Alike st es (S ++ [x]) p (some x) (some t)

theorem same_eof {x : XTok} {t : Tok} (h1 : x.ty = .endOfFile) (h2 : t.ty = .endOfFile) (h3 : x.off = t.off) :
    Same x t := ⟨by rw [h1, h2], h3, fun h => absurd h1 h.1⟩

theorem fresh_sim (st : Store) (es : List Ent) (S : List XTok) (p : Plain) (nl inStr : Bool) (left : List Byte)
    (h : Held st es S) (ht : p.total = st.src.length) (hs : p.src = st.src.drop st.cur)
    (hn : st.next = st.data.length) : BothOk S (fresh st nl inStr left) (p.fresh nl inStr) := by
  have hcl := h.cur_le
  have hsm := h.small
  have hpo := h.pool
  by_cases he : st.src.length ≤ st.cur
  · -- the end of the file
    have hnil : p.src = [] := by rw [hs, List.drop_eq_nil_iff]; exact he
    refine .inr ⟨⟨st.next, st.src.length, .endOfFile, 0, left⟩, { st with cur := st.cur, labels := st.labels },
      ⟨.endOfFile, p.total, []⟩, { p with src := [], back := none }, es, ?_, ?_, ?_⟩
    · unfold fresh; rw [if_pos he]
    · unfold Plain.fresh; rw [if_neg (by simp [hnil]), hnil]; rfl
    · refine ⟨h.pass _ _ _ (by simp [Passing]) (Nat.le_refl _) hcl h.linv hpo ⟨[], by simp⟩ (by simp [hasLabel]), ht, ?_,
        .inl ⟨rfl, hn⟩, by simp, same_eof rfl rfl ht.symm, fun _ => rfl, fun hx => absurd (.inl rfl) hx⟩
      rw [← hs, hnil]
  · have hne : p.src ≠ [] := by
      rw [hs]; intro e; rw [List.drop_eq_nil_iff] at e; exact he e
    unfold fresh
    rw [if_neg he]
    by_cases hi : inStr = true
    · rw [if_pos hi]
      unfold Plain.fresh freshStr
      rw [if_pos ⟨hi, hne⟩, hs]
      cases hr : readStr [] (st.src.drop st.cur) with
      | none => exact .inl ⟨rfl, rfl⟩
      | some v =>
        obtain ⟨ty, text, rest⟩ := v
        obtain ⟨f1, f2, f3, f4, f5, f6, f7⟩ := readStr_ok (by omega) hr
        dsimp only
        by_cases hty : ty = .stringLiteral
        · subst hty
          obtain ⟨l, m', g1, g2, g3, g4, g5, g6⟩ := insert_ok (s := text) h.linv (by omega)
          rw [newLabel, if_pos (show hasLabel .stringLiteral = true from rfl), g1]
          dsimp only
          rw [if_pos (show hasLabel .stringLiteral = true from rfl), Label.view_of_entry g3]
          refine .inr ⟨_, _, _, _, es, rfl, rfl, h.pass _ _ _ f1 (by omega) (by omega) g2 (by omega) g4 (fun _ => g3),
            ht, f5.symm, .inl ⟨rfl, hn⟩, by simp, ⟨rfl, ?_, fun _ => rfl⟩, fun _ => hn.symm, fun hx => absurd f1 hx⟩
          show st.cur = p.total - (st.src.drop st.cur).length
          rw [ht, List.length_drop]; omega
        · have hnl : hasLabel ty = false := by
            cases hh : hasLabel ty with
            | false => rfl
            | true => exact absurd (f3.mp hh) hty
          rw [newLabel, if_neg (by simp [hnl])]
          dsimp only
          rw [if_neg (by simp [hnl])]
          refine .inr ⟨_, _, _, _, es, rfl, rfl, h.pass _ _ _ f1 (by omega) (by omega) h.linv (by omega) ⟨[], by simp⟩
            (fun hh => by rw [hnl] at hh; cases hh),
            ht, f5.symm, .inl ⟨rfl, hn⟩, by simp, ⟨rfl, ?_, ?_⟩, fun _ => hn.symm, fun hx => absurd f1 hx⟩
          · show st.cur = p.total - (st.src.drop st.cur).length
            rw [ht, List.length_drop]; omega
          · rintro ⟨a1, a2, a3⟩
            rcases f1 with e | e | e | e
            · exact absurd e a1
            · exact absurd e hty
            · exact absurd e a2
            · exact absurd e a3
    · rw [if_neg hi]
      unfold Plain.fresh freshLex
      rw [if_neg (fun a => hi a.1), hs, ht]
      cases hr : lex st.src.length nl (st.src.drop st.cur) with
      | mk t rest =>
        dsimp only
        by_cases hty : t.ty = .endOfFile
        · rw [if_pos hty]
          obtain ⟨f1, f2, f3⟩ := lex_stop hr hty
          refine .inr ⟨_, _, _, _, es, rfl, rfl, h.pass _ _ st.labels (by simp [Passing]) hcl (Nat.le_refl _) h.linv (by omega)
            ⟨[], by simp⟩ (by simp [hasLabel]), rfl, ?_, .inl ⟨rfl, hn⟩, by simp, same_eof rfl hty f3.symm,
            fun _ => rfl, fun hx => absurd (.inl rfl) hx⟩
          rw [f2]; simp
        · rw [if_neg hty]
          obtain ⟨f1, f2, f3, f4, f5, f6, f7⟩ := lex_tok hcl hr hty
          have key : ∃ l m', newLabel st.labels t.ty t.text = some (l, m') ∧ Label.Inv m' ∧
              (hasLabel t.ty = true → Label.EntryAt m'.pool l t.text) ∧ (hasLabel t.ty = false → l = 0) ∧
              (∃ ext, m'.pool = st.labels.pool ++ ext) ∧ m'.pool.length ≤ st.labels.pool.length + 5 + t.text.length ∧
              l < 2 ^ 32 := by
            unfold newLabel
            by_cases hx : hasLabel t.ty = true
            · rw [if_pos hx]
              obtain ⟨l, m', g1, g2, g3, g4, g5, g6⟩ := insert_ok (s := t.text) h.linv (by omega)
              exact ⟨l, m', g1, g2, fun _ => g3, (fun hy => by rw [hx] at hy; cases hy), g4, g5, g6⟩
            · rw [if_neg hx]
              exact ⟨0, _, rfl, h.linv, fun hy => absurd hy hx, fun _ => rfl, ⟨[], by simp⟩, by omega, by omega⟩
          obtain ⟨l, m', g1, g2, g3, g4, g5, g6, g7⟩ := key
          rw [g1]
          dsimp only
          obtain ⟨base, e1, e2⟩ := encode_ok
            { st with cur := st.src.length - rest.length, labels := m' } es ⟨st.data.length, t.off, t.ty, l, t.text⟩
            h.lay hn rfl (fun x hx => Nat.lt_of_lt_of_le (h.offs x hx) f1) (by dsimp only; omega) g7
            (by have := h.cnt; omega)
          rw [e2]
          dsimp only at e1 ⊢
          refine .inr ⟨_, _, _, _, _, rfl, rfl, h.store ⟨st.data.length, t.off, t.ty, l, t.text⟩ (st.src.length - rest.length) m'
            e1 rfl f6 f1 f3 f2 f5 (by omega) g2 (by omega) g5 g3 g4, rfl, f4.symm, .inl ⟨rfl, rfl⟩, by simp,
            ⟨rfl, rfl, fun _ => rfl⟩, fun hx => absurd hx f6, fun _ => ⟨?_, ?_⟩⟩
          · refine ⟨es, _, st.data, st.table, rfl, h.lay, rfl, rfl, rfl, rfl, ?_, Nat.le_of_eq f2⟩
            show t.text = (st.src.drop t.off).take (st.src.length - rest.length - t.off)
            rw [← f2, Nat.add_sub_cancel_left, f5]
          · show st.data.length ≤ (st.data ++ _).length
            rw [List.length_append]; omega

theorem read_sim (st : Store) (es : List Ent) (S : List XTok) (p : Plain) (l : Option XTok) (lp : Option Tok)
    (nl inStr : Bool) (h : Alike st es S p l lp) : BothOk S (readTok st nl inStr) (p.read nl inStr) := by
  unfold readTok
  rcases h.back with ⟨hb, hn⟩ | ⟨x, t, hx, hb, hlast, hn, hsame, hpass⟩
  · unfold Plain.read
    rw [hb, readLoop, if_neg (by omega)]
    exact fresh_sim st es S p nl inStr [] h.good h.total h.src hn
  · obtain ⟨es1, e, d1, t1, h1, h2, h3, h4, h5, h6, h7, h8⟩ := hlast
    have hg := h.good
    obtain ⟨d1', t1', base, g1, g2, g3, g4, g5, g6, g7, g8⟩ := hg.lay.snoc_inv h1
    obtain ⟨rfl, rfl⟩ := h2.unique g1
    have hlen := entBytes_len (base := base) g4 g5
    have hdl : st.data.length = d1.length + (entBytes base e).length := by rw [g7, List.length_append]
    have hem : e ∈ es := by rw [h1]; simp
    have hexp := expand_last st [] (es1 := es1) g2 g7 g8 g3 g4 g5 (hg.nolab e hem)
      (by have := hg.offs e hem; omega) hg.cur_le
    have hxe : (⟨d1.length, e.off, e.ty, e.label, (st.src.drop e.off).take (st.cur - e.off)⟩ : XTok) = x := by
      cases x
      simp only at h3 h4 h5 h6 h7
      subst h3 h4 h5 h6
      rw [XTok.mk.injEq]
      exact ⟨rfl, rfl, rfl, rfl, h7.symm⟩
    rw [hxe] at hexp
    rw [readLoop, if_pos (by omega), hn, h3, hexp]
    dsimp only
    unfold Plain.read
    rw [hb]
    dsimp only
    by_cases hnew : x.ty = .newLine ∧ nl = false
    · rw [if_pos hnew, if_pos (by rw [← hsame.1]; exact hnew)]
      obtain ⟨k, hk⟩ : ∃ k, st.data.length = k + 1 := ⟨st.data.length - 1, by omega⟩
      rw [hk, readLoop, if_neg (by dsimp only; omega)]
      exact fresh_sim { st with next := d1.length + (entBytes base e).length } es S p nl inStr _ (hg.next _) h.total h.src
        hdl.symm
    · rw [if_neg hnew, if_neg (by rw [← hsame.1]; exact hnew)]
      refine .inr ⟨_, _, _, _, es, rfl, rfl, hg.again x hx _, h.total, h.src, .inl ⟨rfl, hdl.symm⟩, by simp, hsame,
        fun hy => absurd hy hpass, fun _ => ⟨⟨es1, e, d1, t1, h1, h2, h3, h4, h5, h6, h7, h8⟩, ?_⟩⟩
      show x.idx ≤ d1.length + _
      omega

theorem encodeTok_src {st st' : Store} {t : XTok} (h : encodeTok st t = some st') : st'.src = st.src := by
  unfold encodeTok at h
  split at h
  · split at h
    · cases h
    · split at h
      · cases h
      · split at h
        · split at h
          · cases h
          · split at h
            · cases h
            · cases h; rfl
        · cases h
  · cases h

theorem fresh_src {st st' : Store} {nl inStr : Bool} {left : List Byte} {x : XTok}
    (h : fresh st nl inStr left = some (x, st')) : st'.src = st.src := by
  unfold fresh at h
  split at h
  · cases h; rfl
  · split at h
    · unfold freshStr at h
      split at h
      · cases h
      · split at h
        · cases h
        · split at h
          · split at h
            · cases h
            · cases h; rfl
          · cases h; rfl
    · unfold freshLex at h
      split at h
      split at h
      · cases h; rfl
      · split at h
        · cases h
        · split at h
          · cases h
          · rename_i he
            cases h
            exact (encodeTok_src he).trans rfl

theorem readLoop_src {nl inStr : Bool} : ∀ (n : Nat) {st st' : Store} {left : List Byte} {x : XTok},
    readLoop nl inStr n st left = some (x, st') → st'.src = st.src := by
  intro n
  induction n with
  | zero => intro st st' left x h; cases h
  | succ n ih =>
    intro st st' left x h
    rw [readLoop] at h
    split at h
    · split at h
      · cases h
      · split at h
        · exact (ih h).trans rfl
        · cases h; rfl
    · exact fresh_src h

theorem readTok_src {st st' : Store} {nl inStr : Bool} {x : XTok} (h : readTok st nl inStr = some (x, st')) :
    st'.src = st.src := readLoop_src _ h

/-- The tokens asked for: both tokenizers go on or both stop. -/
theorem run_sim : ∀ (as : List Ask) (st : Store) (es : List Ent) (S : List XTok) (p : Plain) (l : Option XTok)
    (lp : Option Tok), Alike st es S p l lp →
    (Store.run as st l = none ∧ Plain.run as p lp = none) ∨
      ∃ xs st' ts es', Store.run as st l = some (xs, st') ∧ Plain.run as p lp = some ts ∧ AllSame xs ts ∧
        Held st' es' (S ++ xs) ∧ st'.src = st.src := by
  intro as
  induction as with
  | nil =>
    intro st es S p l lp h
    exact .inr ⟨[], st, [], es, rfl, rfl, trivial, by rw [List.append_nil]; exact h.good, rfl⟩
  | cons a as ih =>
    intro st es S p l lp h
    cases a with
    | read nl inStr =>
      rw [Store.run, Plain.run]
      rcases read_sim st es S p l lp nl inStr h with ⟨h1, h2⟩ | ⟨x, st', t, p', es', h1, h2, h3⟩
      · rw [h1, h2]; exact .inl ⟨rfl, rfl⟩
      · have hsrc := readTok_src h1
        rw [h1, h2]
        dsimp only
        rcases ih st' es' (S ++ [x]) p' (some x) (some t) h3 with ⟨g1, g2⟩ | ⟨xs, st'', ts, es'', g1, g2, g3, g4, g5⟩
        · rw [g1, g2]; exact .inl ⟨rfl, rfl⟩
        · rw [g1, g2]
          refine .inr ⟨x :: xs, st'', t :: ts, es'', rfl, rfl, ⟨h3.last.2.1, g3⟩, ?_, by rw [g5, hsrc]⟩
          rw [List.append_assoc] at g4; exact g4
    | again =>
      rw [Store.run.eq_def, Plain.run.eq_def]
      dsimp only
      have hl := h.last
      cases l with
      | none =>
        cases lp with
        | none => exact ih st es S p none none h
        | some t => exact absurd hl (by simp [LastOk])
      | some x =>
        cases lp with
        | none => exact absurd hl (by simp [LastOk])
        | some t =>
          obtain ⟨h1, h2, h3, h4⟩ := hl
          dsimp only
          by_cases hp : Passing x.ty
          · rw [if_pos (by rw [← h2.1]; exact hp), rewindTo, if_pos (by rw [h3 hp]; exact Nat.le_refl _), h3 hp]
            exact ih st es S p (some x) (some t) h
          · rw [if_neg (by rw [← h2.1]; exact hp), rewindTo, if_pos (h4 hp).2]
            exact ih { st with next := x.idx } es S { p with back := some t } (some x) (some t)
              ⟨h.good.next _, h.total, h.src, .inr ⟨x, t, h1, rfl, (h4 hp).1, rfl, h2, hp⟩, h1, h2,
                fun hx => absurd hx hp, fun _ => ⟨(h4 hp).1, Nat.le_refl _⟩⟩

theorem sim_init (src : List Byte) (m : Label.LabelMap) (hm : Label.Inv m) (hs : src.length ≤ 2 ^ 24)
    (hp : m.pool.length ≤ 2 ^ 29) : Alike (Store.init src m) [] [] ⟨src.length, src, none⟩ none none := by
  refine ⟨⟨.nil, Nat.zero_le _, hs, by simp, Nat.zero_le _, by simp, hm, ?_, by simp, ?_, by simp⟩, rfl, rfl,
    .inl ⟨rfl, rfl⟩, trivial⟩
  · rw [show (Store.init src m).cur = 0 from rfl, show (Store.init src m).labels = m from rfl]; omega
  · intro es1 e es2 d1 t1 h; simp at h

end Verif.Crowbar
