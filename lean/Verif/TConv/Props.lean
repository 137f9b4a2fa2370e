import Verif.TConv.Lemmas
/-!
# Text converter — properties
-/
namespace Verif.TConv
open Verif Verif.Enc Spec

theorem encodings_good {e : Encoding} (h : e ∈ encodings) : GoodDec e.dec ∧ GoodEnc e.enc := by
  simp only [encodings, List.mem_cons, List.not_mem_nil, or_false] at h
  rcases h with rfl | rfl | rfl | rfl
  · exact ⟨good_bytes, goodEnc_bytes⟩
  · exact ⟨good_utf8, goodEnc_utf8⟩
  · exact ⟨good_utf16 _, goodEnc_utf16 _⟩
  · exact ⟨good_utf16 _, goodEnc_utf16 _⟩

/-- **C04.** Converting a whole string: for any pair of encodings, any text at all (well formed or
not) and any sizes of output buffers, the result is the character-by-character conversion. -/
theorem C04_whole (dst src : Encoding) (hd : dst ∈ encodings) (hs : src ∈ encodings)
    (text : List Byte) (room : List Nat) (hpos : ∀ c ∈ room, 0 < c)
    (hlen : (converted dst src text).length < room.length) :
    convertInternal dst src room text = some (converted dst src text) := by
  obtain ⟨st', out, rest, e, hw⟩ := writeTo_flush (encodings_good hs).1 (encodings_good hd).2
    (W := converted dst src text) room [] .init text (by simp [St.init, conv]) (by simp [St.init])
    (by simp [St.init]) hpos (by simpa using hlen)
  unfold convertInternal
  rw [e]
  simpa using hw

example : convertInternal (utf16E false) utf8E [1, 3, 1, 4, 1, 1, 1, 1, 1]
    [0x61, 0xE2, 0x82, 0xAC, 0xF0, 0x9F, 0x98, 0x80] =
    some [0x61, 0, 0xAC, 0x20, 0x3D, 0xD8, 0x00, 0xDE] := by decide +kernel

theorem client_spec {dst src : Encoding} (hs : GoodDec src.dec) (hd : GoodEnc dst.enc)
    {W : List Byte} : ∀ (cs : List Call) (pre : List Byte) (st : St) (rest : List Byte),
      pre ++ st.dstSmall ++ conv dst src (st.srcSmall ++ rest) = W →
      st.srcSmall.length ≤ 3 → st.dstSmall.length ≤ 4 → NS src.dec (st.srcSmall ++ rest) →
      okCalls dst src cs st rest →
      ∃ st' out rest', client dst src cs st rest = some (st', out, rest') ∧
        pre ++ out ++ st'.dstSmall ++ conv dst src (st'.srcSmall ++ rest') = W ∧
        st'.srcSmall.length ≤ 3 ∧ st'.dstSmall.length ≤ 4 ∧ NS src.dec (st'.srcSmall ++ rest') := by
  intro cs
  induction cs with
  | nil => intro pre st rest hW h3 h4 hns _; exact ⟨st, [], rest, rfl, by simpa using hW, h3, h4, hns⟩
  | cons c cs ih =>
    intro pre st rest hW h3 h4 hns hok
    obtain ⟨hfl, hok⟩ := hok
    have hT : st.srcSmall ++ rest.take c.n ++ rest.drop c.n = st.srcSmall ++ rest := by simp
    obtain ⟨r, e, p⟩ := convert_spec hs hd (W := W) (pre := pre) (tail := rest.drop c.n)
      (flush := c.flush) (fun h => List.drop_eq_nil_of_le (hfl h)) st c.cap (rest.take c.n)
      (by rw [hT]; exact hW) h3 h4 (fun _ => by rw [hT]; exact hns)
    rw [e] at hok
    dsimp only at hok
    unfold client
    rw [e]
    dsimp only
    have hall := p.inv.all
    have hns' := p.ns.noStray hs (by rw [hT]; exact hns)
    rw [R.text] at hns'
    rw [List.append_assoc r.srcSmall] at hns' hall
    obtain ⟨st', out, rest', e', h1, h2, h5, h6⟩ := ih (pre ++ r.out) ⟨r.srcSmall, r.dstSmall⟩ _ hall
      p.inv.small p.inv.dsmall hns' hok
    rw [e']
    exact ⟨st', r.out ++ out, rest', rfl, by simpa using h1, h2, h5, h6⟩

/-- **C04**, part.  However the source is cut into views and however much room each call offers —
down to nothing — the converter never fails, and what it has written is always a prefix of the
conversion of the whole text.  Missing from the full claim: texts with stray bytes (`NoStray`), for
which the statement is false (`C04_stray_assert`). -/
theorem C04_prefix_partial (dst src : Encoding) (hd : dst ∈ encodings) (hs : src ∈ encodings)
    (text : List Byte) (hn : NoStray src.dec text.length text) (cs : List Call)
    (hok : okCalls dst src cs .init text) :
    ∃ st out rest, client dst src cs .init text = some (st, out, rest) ∧
      out <+: converted dst src text := by
  obtain ⟨st', out, rest', e, h1, _⟩ := client_spec (encodings_good hs).1 (encodings_good hd).2
    (W := converted dst src text) cs [] .init text (by simp [St.init, conv]) (by simp [St.init])
    (by simp [St.init]) (by simpa [St.init, NS] using hn) hok
  refine ⟨st', out, rest', e, ?_⟩
  rw [← h1]
  simp only [List.nil_append, List.append_assoc]
  exact List.prefix_append _ _

/-- **C04**, part.  Whatever calls came before, one final call that shows the rest of the source,
says `flush` and offers enough room completes the conversion: all the output taken together is the
conversion of the whole text, independent of where the source was cut and of the output buffer
sizes.  Missing: texts with stray bytes, as above. -/
theorem C04_complete_partial (dst src : Encoding) (hd : dst ∈ encodings) (hs : src ∈ encodings)
    (text : List Byte) (hn : NoStray src.dec text.length text) (cs : List Call)
    (hok : okCalls dst src cs .init text) :
    ∃ st out rest, client dst src cs .init text = some (st, out, rest) ∧
      ∀ cap, (converted dst src text).length - out.length < cap →
        ∃ r, convert dst src st cap rest true = some r ∧
          out ++ r.out = converted dst src text := by
  obtain ⟨st', out, rest', e, h1, h3, h4, hns⟩ := client_spec (encodings_good hs).1
    (encodings_good hd).2
    (W := converted dst src text) cs [] .init text (by simp [St.init, conv]) (by simp [St.init])
    (by simp [St.init]) (by simpa [St.init, NS] using hn) hok
  refine ⟨st', out, rest', e, ?_⟩
  intro cap hcap
  obtain ⟨r, er, p⟩ := convert_spec (encodings_good hs).1 (encodings_good hd).2
    (W := converted dst src text) (pre := out) (tail := [])
    (flush := true) (fun _ => rfl) st' cap rest' (by simpa using h1) h3 h4 (by simp)
  refine ⟨r, er, ?_⟩
  have hall := p.inv.all
  have hroom := p.room
  have hc : 0 < r.cap := by
    have := congrArg List.length hall
    simp only [List.length_append] at this
    omega
  have hf := p.fin hc rfl
  rw [R.text] at hf
  rw [p.dsm hc, hf] at hall
  simpa using hall

theorem okCalls_noflush (dst src : Encoding) : ∀ (cs : List Call), (∀ c ∈ cs, c.flush = false) →
    ∀ st rest, okCalls dst src cs st rest := by
  intro cs
  induction cs with
  | nil => intro _ _ _; trivial
  | cons c cs ih =>
    intro h st rest
    refine ⟨fun hf => absurd hf (by rw [h c (by simp)]; simp), ?_⟩
    split
    · trivial
    · exact ih (fun c' hc => h c' (by simp [hc])) _ _

/-- The euro sign and an accented letter, shown one byte at a time with one byte of room, then
finished. -/
example : okCalls (utf16E true) utf8E
      [⟨1, 1, false⟩, ⟨1, 1, false⟩, ⟨1, 2, false⟩, ⟨0, 1, false⟩, ⟨1, 1, false⟩, ⟨1, 1, false⟩]
      .init [0xE2, 0x82, 0xAC, 0xC3, 0xA9] ∧
    NoStray utf8E.dec 5 [0xE2, 0x82, 0xAC, 0xC3, 0xA9] ∧
    client (utf16E true) utf8E
      [⟨1, 1, false⟩, ⟨1, 1, false⟩, ⟨1, 2, false⟩, ⟨0, 1, false⟩, ⟨1, 1, false⟩, ⟨1, 1, false⟩]
      .init [0xE2, 0x82, 0xAC, 0xC3, 0xA9] =
      some (⟨[0xC3], []⟩, [0x20, 0xAC], [0xA9]) := by
  refine ⟨?_, ?_, ?_⟩
  · exact okCalls_noflush _ _ _ (by decide) _ _
  · simp only [NoStray]; decide +kernel
  · decide +kernel

theorem pipe_spec {dst src : Encoding} (hs : GoodDec src.dec) (hd : GoodEnc dst.enc)
    {W : List Byte} (room : List Nat) (hroom : ∀ c ∈ room, 0 < c) (hl : W.length < room.length) :
    ∀ (pieces : List (List Nat × List Byte)) (pre : List Byte) (st : St),
      pre ++ conv dst src (st.srcSmall ++ (pieces.map (·.2)).flatten) = W →
      st.srcSmall.length ≤ 3 → st.dstSmall = [] →
      NS src.dec (st.srcSmall ++ (pieces.map (·.2)).flatten) →
      (∀ q ∈ pieces, (∀ c ∈ q.1, 0 < c) ∧ W.length < q.1.length ∧ 3 ≤ q.2.length) →
      ∃ out, pipe dst src pieces room st = some out ∧ pre ++ out = W := by
  intro pieces
  induction pieces with
  | nil =>
    intro pre st hW h3 h4 hns _
    obtain ⟨st', out, rest, e, hw⟩ := writeTo_flush hs hd (W := W) room pre st []
      (by simpa [h4] using hW) h3 (by simp [h4]) hroom (by omega)
    refine ⟨out, ?_, hw⟩
    unfold pipe
    rw [e]
  | cons q pieces ih =>
    intro pre st hW h3 h4 hns hq
    obtain ⟨caps, piece⟩ := q
    obtain ⟨hc1, hc2, hc3⟩ := hq (caps, piece) (by simp)
    dsimp only at hc1 hc2 hc3
    have hT : st.srcSmall ++ piece ++ (pieces.map (·.2)).flatten =
        st.srcSmall ++ (((caps, piece) :: pieces).map (·.2)).flatten := by simp
    obtain ⟨st', out, e, h1, h2, h5, h6⟩ := writeTo_pipe hs hd (W := W)
      (tail := (pieces.map (·.2)).flatten) caps pre st piece
      (by rw [hT, h4, List.append_nil]; exact hW) h3 (by simp [h4]) hc1 (by rw [hT]; exact hns)
      (.inr (.inr hc3)) (by omega)
    obtain ⟨out', e', hw⟩ := ih (pre ++ out) st' h1 h2 h5 h6 (fun q h => hq q (by simp [h]))
    refine ⟨out ++ out', ?_, by simpa using hw⟩
    unfold pipe
    rw [e]
    dsimp only
    rw [e']

/-- **C04**, part.  Writing a text through a converting output pipe in pieces of three bytes or more
and then flushing delivers the conversion of the whole text, wherever the pieces are cut.  Missing:
shorter pieces, for which the pipe can lose bytes (`C04_pipe_loses`), and texts with stray bytes. -/
theorem C04_pipe_partial (dst src : Encoding) (hd : dst ∈ encodings) (hs : src ∈ encodings)
    (pieces : List (List Nat × List Byte)) (room : List Nat)
    (hn : NoStray src.dec (pieces.map (·.2)).flatten.length (pieces.map (·.2)).flatten)
    (hp : ∀ q ∈ pieces, (∀ c ∈ q.1, 0 < c) ∧
      (converted dst src (pieces.map (·.2)).flatten).length < q.1.length ∧ 3 ≤ q.2.length)
    (hroom : ∀ c ∈ room, 0 < c)
    (hl : (converted dst src (pieces.map (·.2)).flatten).length < room.length) :
    pipe dst src pieces room .init = some (converted dst src (pieces.map (·.2)).flatten) := by
  obtain ⟨out, e, hw⟩ := pipe_spec (encodings_good hs).1 (encodings_good hd).2
    (W := converted dst src (pieces.map (·.2)).flatten) room hroom hl pieces [] .init
    (by simp [St.init, conv]) (by simp [St.init]) rfl (by simpa [St.init, NS] using hn) hp
  rw [e]
  simpa using hw

example : pipe utf8E utf8E [([9, 9, 9, 9, 9, 9, 9], [0x61, 0x62, 0xE2]),
    ([1, 1, 1, 1, 1, 1, 1], [0x82, 0xAC, 0x63])] [1, 1, 1, 1, 1, 1, 1] .init =
    some [0x61, 0x62, 0xE2, 0x82, 0xAC, 0x63] := by decide +kernel

/-- **C04**, disagreement.  Three one-byte writes of a single three-byte character: the second byte
is lost and the character is destroyed. -/
theorem C04_pipe_loses :
    pipe utf8E utf8E [([9, 9], [0xE2]), ([9, 9], [0x82]), ([9, 9], [0xAC])] [9, 9, 9] .init ≠
      some [0xE2, 0x82, 0xAC] ∧
    converted utf8E utf8E [0xE2, 0x82, 0xAC] = [0xE2, 0x82, 0xAC] := by decide +kernel

/-- **C04**, disagreement.  A byte that cannot start a UTF-8 character, met with three or more bytes
behind it in the view and without `flush`, breaks the converter's sanity check (and would overrun
its four-byte buffer when assertions are off and more than three bytes follow). -/
theorem C04_stray_assert (dst : Encoding) (a : Byte) (h : announced a = none) (t : List Byte)
    (ht : 3 ≤ t.length) (cap : Nat) (hc : 0 < cap) :
    convert dst utf8E .init cap (a :: t) false = none := by
  have htr : (utf8E.dec (a :: t)).status = .truncated := C02_stray_reports_truncated a h t
  unfold convert
  dsimp only [St.init]
  rw [if_neg (by omega), if_neg (by simp)]
  unfold convertRest flushDst
  dsimp only
  rw [smallLoop.eq_def]
  simp only [if_true]
  unfold convertMain
  rw [if_neg (by simp; omega)]
  rw [mainLoop.eq_def]
  simp only [List.length_cons]
  rw [if_neg (by simp)]
  rw [if_pos ⟨htr, trivial⟩, if_neg (by omega)]

example : announced 0x80 = none ∧ announced 0xF8 = none := by decide

theorem conv_empty {dst src : Encoding} (hs : GoodDec src.dec) (hd : GoodEnc dst.enc)
    {T : List Byte} (h : conv dst src T = []) : (src.dec T).point < 0 := by
  refine Classical.byContradiction fun hp => ?_
  rw [conv_step hs (by omega)] at h
  obtain ⟨e0, he0, _, he⟩ := hd (src.dec T).point.toNat
  rw [he 4 (by omega)] at h
  simp only [Option.getD_some, List.append_eq_nil_iff] at h
  rw [h.1] at he0
  simp at he0

theorem readFrom_spec {dst src : Encoding} (hs : GoodDec src.dec) (hd : GoodEnc dst.enc)
    {av : Nat → List Byte → Nat × Bool} (hav : GoodAvail av) {W : List Byte} (fuel i : Nat)
    (pre : List Byte) (st : St) (cap : Nat) (hc : 0 < cap) (rest : List Byte)
    (hW : pre ++ st.dstSmall ++ conv dst src (st.srcSmall ++ rest) = W)
    (h3 : st.srcSmall.length ≤ 3) (h4 : st.dstSmall.length ≤ 4)
    (hns : NS src.dec (st.srcSmall ++ rest)) :
    (readFrom dst src av (fuel + 1) i st cap rest = none ∧
      ∃ V, Later src.dec (st.srcSmall ++ rest) V ∧ V ≠ [] ∧ (src.dec V).point < 0) ∨
    ∃ st' out rest' i', readFrom dst src av (fuel + 1) i st cap rest = some (st', out, rest', i') ∧
      pre ++ out ++ st'.dstSmall ++ conv dst src (st'.srcSmall ++ rest') = W ∧
      st'.srcSmall.length ≤ 3 ∧ st'.dstSmall.length ≤ 4 ∧
      Later src.dec (st.srcSmall ++ rest) (st'.srcSmall ++ rest') ∧ (out = [] → pre = W) := by
  obtain ⟨ha, hb⟩ := hav i rest
  generalize han : (av i rest).1 = n at *
  generalize hae : (av i rest).2 = eof at *
  have hT : st.srcSmall ++ rest.take n ++ rest.drop n = st.srcSmall ++ rest := by simp
  obtain ⟨r, e, p⟩ := convert_spec hs hd (W := W) (pre := pre) (tail := rest.drop n)
    (flush := eof) (fun h => List.drop_eq_nil_of_le (ha h)) st cap (rest.take n)
    (by rw [hT]; exact hW) h3 h4 (fun _ => by rw [hT]; exact hns)
  unfold readFrom
  rw [han, hae, e]
  dsimp only
  have hall := p.inv.all
  have hns' := p.ns
  rw [hT, R.text, List.append_assoc r.srcSmall] at hns'
  by_cases ho : r.out = []
  · rw [if_neg (by simp [ho])]
    have hr := p.room
    rw [ho, List.length_nil, Nat.add_zero] at hr
    cases eof with
    | true =>
      have hf := p.fin (by omega) rfl
      have hdr : rest.drop n = [] := List.drop_eq_nil_of_le (ha rfl)
      rw [if_pos rfl]
      by_cases hsrc : r.src.length = 0
      · right
        have hsrc' : r.src = [] := List.length_eq_zero_iff.mp hsrc
        rw [if_pos hsrc]
        rw [ho, p.dsm (by omega), show conv dst src (r.srcSmall ++ r.src ++ rest.drop n) = []
          from hf] at hall
        simp only [List.append_nil] at hall
        refine ⟨_, _, _, _, rfl, ?_, p.inv.small, p.inv.dsmall, ?_, fun _ => hall⟩
        · dsimp only
          rw [p.dsm (by omega)]
          rw [R.text, hsrc', List.append_nil] at hf
          rw [hf]
          simpa using hall
        · dsimp only; rw [hsrc', List.nil_append] at hns'; exact hns'
      · left
        rw [if_neg hsrc]
        refine ⟨rfl, _, hns', ?_, ?_⟩
        · intro h0
          simp only [List.append_eq_nil_iff] at h0
          rw [h0.2.1] at hsrc
          exact hsrc rfl
        · apply conv_empty hs hd
          rw [R.text, List.append_assoc] at hf
          exact hf
    | false =>
      exfalso
      have hsame := p.same ho hc
      have hlen := congrArg List.length hsame
      simp only [R.text, List.length_append, List.length_take, List.length_drop] at hlen
      have hn4 := hb rfl
      have := p.inv.small
      rcases p.used (by omega) rfl with h | ⟨_, h, h'⟩
      · rw [h] at hlen; simp only [List.length_nil] at hlen; omega
      · rw [h', List.length_take] at h; omega
  · rw [if_pos ho]
    refine .inr ⟨_, _, _, _, rfl, ?_, p.inv.small, p.inv.dsmall, hns', fun h => absurd h ho⟩
    rw [List.append_assoc r.srcSmall] at hall
    exact hall

theorem reads_spec {dst src : Encoding} (hs : GoodDec src.dec) (hd : GoodEnc dst.enc)
    {av : Nat → List Byte → Nat × Bool} (hav : GoodAvail av) {W : List Byte} (fuel : Nat) :
    ∀ (caps : List Nat) (i : Nat) (pre : List Byte) (st : St) (rest : List Byte),
      (∀ c ∈ caps, 0 < c) →
      pre ++ st.dstSmall ++ conv dst src (st.srcSmall ++ rest) = W →
      st.srcSmall.length ≤ 3 → st.dstSmall.length ≤ 4 → NS src.dec (st.srcSmall ++ rest) →
      (reads dst src av (fuel + 1) caps i st rest = none ∧
        ∃ V, Later src.dec (st.srcSmall ++ rest) V ∧ V ≠ [] ∧ (src.dec V).point < 0) ∨
      ∃ outs, reads dst src av (fuel + 1) caps i st rest = some outs ∧
        outs.length = caps.length ∧ (pre ++ outs.flatten) <+: W ∧
        ([] ∈ outs → pre ++ outs.flatten = W) := by
  intro caps
  induction caps with
  | nil =>
    intro i pre st rest _ hW _ _ _
    refine .inr ⟨[], rfl, rfl, ?_, by simp⟩
    rw [← hW]
    simp only [List.flatten_nil, List.append_nil, List.append_assoc]
    exact List.prefix_append _ _
  | cons cap caps ih =>
    intro i pre st rest hpos hW h3 h4 hns
    unfold reads
    rcases readFrom_spec hs hd hav fuel i pre st cap (hpos cap (by simp)) rest hW h3 h4 hns with
      ⟨e, V, hV⟩ | ⟨st', out, rest', i', e, h1, h2, h5, h6, h7⟩
    · rw [e]; exact .inl ⟨rfl, V, hV⟩
    rw [e]
    dsimp only
    rcases ih i' (pre ++ out) st' rest' (fun c h => hpos c (by simp [h]))
      h1 h2 h5 (h6.noStray hs hns) with ⟨e', V, hV, hV'⟩ | ⟨outs, e', hl, hp, hfin⟩
    · rw [e']; exact .inl ⟨rfl, V, h6.trans hV, hV'⟩
    rw [e']
    refine .inr ⟨out :: outs, rfl, by simp [hl], by simpa using hp, ?_⟩
    intro hmem
    simp only [List.mem_cons] at hmem
    rcases hmem with h | h
    · have hpre := h7 h.symm
      have := hp.length_le
      rw [← hpre] at hp this ⊢
      simp only [List.length_append] at this
      simp only [← h, List.length_nil, Nat.add_zero, List.flatten_cons,
        List.nil_append] at this ⊢
      have h0 : outs.flatten = [] := List.length_eq_zero_iff.mp (by omega)
      rw [h0, List.append_nil]
    · simpa using hfin h

theorem utf16_whole {be : Bool} {T V : List Byte} (h : Later (decodeUTF16 be) T V)
    (he : T.length % 2 = 0) : V ≠ [] → 0 ≤ (decodeUTF16 be V).point := by
  have hV : V.length % 2 = 0 := by
    refine h (fun V => V.length % 2 = 0) ?_ he
    intro V _ hV
    have hn : (decodeUTF16 be V).numBytes % 2 = 0 := by
      unfold decodeUTF16
      split
      · rfl
      · rfl
      · dsimp only
        split
        · split
          · split <;> simp
          · simp
        · split <;> simp
    rw [List.length_drop]
    omega
  intro hne
  match V with
  | [] => exact absurd rfl hne
  | [_] => simp at hV
  | _ :: _ :: _ =>
    unfold decodeUTF16
    dsimp only
    split
    · split
      · split <;> exact Int.natCast_nonneg _
      · exact Int.natCast_nonneg _
    · split <;> exact Int.natCast_nonneg _

/-- A text whose bytes can all be decoded: any, unless it is UTF-16 with an odd number of bytes. -/
theorem whole_text {src : Encoding} (hs : src ∈ encodings) {T V : List Byte}
    (h : Later src.dec T V) (hT : src = bytesE ∨ src = utf8E ∨ T.length % 2 = 0) :
    V ≠ [] → 0 ≤ (src.dec V).point := by
  intro hV
  have hc : ∀ (a : Byte) t, V = a :: t → src = bytesE ∨ src = utf8E → 0 ≤ (src.dec V).point := by
    intro a t e hs
    subst e
    rcases hs with rfl | rfl
    · exact Int.natCast_nonneg _
    · exact utf8_point a t
  obtain ⟨a, t, e⟩ := List.exists_cons_of_ne_nil hV
  rcases hT with h1 | h1 | h1
  · exact hc a t e (.inl h1)
  · exact hc a t e (.inr h1)
  · simp only [encodings, List.mem_cons, List.not_mem_nil, or_false] at hs
    rcases hs with rfl | rfl | rfl | rfl
    · exact hc a t e (.inl rfl)
    · exact hc a t e (.inr rfl)
    · exact utf16_whole h h1 hV
    · exact utf16_whole h h1 hV

/-- **C04**, part.  Reading through a converting input pipe between any two encodings: whatever
the buffer sizes and however the underlying stream delivers its bytes, every read succeeds, the
blocks form a prefix of the conversion of the whole text, and an empty block is returned only when
all of it has been delivered.  Missing: UTF-8 texts with stray bytes (`C04_stray_assert`), and UTF-16
texts with an odd number of bytes (`C04_read_odd`, `C04_read_sound`). -/
theorem C04_read_partial (dst src : Encoding) (hd : dst ∈ encodings) (hs : src ∈ encodings)
    (text : List Byte) (hn : NoStray src.dec text.length text)
    (heven : src = bytesE ∨ src = utf8E ∨ text.length % 2 = 0)
    (av : Nat → List Byte → Nat × Bool) (hav : GoodAvail av) (fuel : Nat) (caps : List Nat)
    (hpos : ∀ c ∈ caps, 0 < c) :
    ∃ outs, reads dst src av (fuel + 1) caps 0 .init text = some outs ∧
      outs.length = caps.length ∧ outs.flatten <+: converted dst src text ∧
      ([] ∈ outs → outs.flatten = converted dst src text) := by
  rcases reads_spec (encodings_good hs).1 (encodings_good hd).2 hav
    (W := converted dst src text) fuel caps 0 [] .init text hpos (by simp [St.init, conv])
    (by simp [St.init]) (by simp [St.init]) (by simpa [St.init, NS] using hn) with
    ⟨_, V, h1, h2, h3⟩ | ⟨outs, e, h1, h2, h3⟩
  · have := whole_text hs h1 (by simpa [St.init] using heven) h2
    omega
  · exact ⟨outs, e, h1, by simpa using h2, by simpa using h3⟩

/-- **C04.** Whatever the text, when the reads succeed they have delivered the beginning of its
conversion, and all of it once a block is empty: of a UTF-16 text with an odd number of bytes the
last byte is either refused by an assertion or passed over. -/
theorem C04_read_sound (dst src : Encoding) (hd : dst ∈ encodings) (hs : src ∈ encodings)
    (text : List Byte) (hn : NoStray src.dec text.length text)
    (av : Nat → List Byte → Nat × Bool) (hav : GoodAvail av) (fuel : Nat) (caps : List Nat)
    (hpos : ∀ c ∈ caps, 0 < c) (outs : List (List Byte))
    (h : reads dst src av (fuel + 1) caps 0 .init text = some outs) :
    outs.flatten <+: converted dst src text ∧
      ([] ∈ outs → outs.flatten = converted dst src text) := by
  rcases reads_spec (encodings_good hs).1 (encodings_good hd).2 hav
    (W := converted dst src text) fuel caps 0 [] .init text hpos (by simp [St.init, conv])
    (by simp [St.init]) (by simp [St.init]) (by simpa [St.init, NS] using hn) with
    ⟨e, _⟩ | ⟨outs', e, _, h2, h3⟩
  · rw [e] at h; cases h
  · rw [e] at h
    cases h
    exact ⟨by simpa using h2, by simpa using h3⟩

/-- UTF-16 texts have no stray bytes in the sense of `NoStray`. -/
theorem utf16_noStray (be : Bool) : ∀ (fuel : Nat) (T : List Byte),
    NoStray (utf16E be).dec fuel T := by
  intro fuel
  induction fuel with
  | zero => intro T; trivial
  | succ fuel ih =>
    intro T
    unfold NoStray
    refine .inr (.inr ⟨?_, ih _⟩)
    intro h4
    match T, h4 with
    | a :: b :: c :: d :: t, _ =>
      show (decodeUTF16 be _).status ≠ _
      unfold decodeUTF16
      dsimp only
      split
      · split <;> (intro h; cases h)
      · split <;> (intro h; cases h)

/-- **C04.** From UTF-16 the reads always succeed if the number of bytes is even, whatever they are. -/
theorem C04_read_utf16 (dst : Encoding) (be : Bool) (hd : dst ∈ encodings)
    (text : List Byte) (heven : text.length % 2 = 0)
    (av : Nat → List Byte → Nat × Bool) (hav : GoodAvail av) (fuel : Nat) (caps : List Nat)
    (hpos : ∀ c ∈ caps, 0 < c) :
    ∃ outs, reads dst (utf16E be) av (fuel + 1) caps 0 .init text = some outs ∧
      outs.length = caps.length ∧ outs.flatten <+: converted dst (utf16E be) text ∧
      ([] ∈ outs → outs.flatten = converted dst (utf16E be) text) :=
  C04_read_partial dst _ hd (by cases be <;> simp [encodings]) text (utf16_noStray be _ _)
    (.inr (.inr heven)) av hav fuel caps hpos

/-- A stream that delivers four bytes at a time. -/
def fourAtATime (_ : Nat) (rest : List Byte) : Nat × Bool := (4, decide (rest.length < 4))

example : GoodAvail fourAtATime ∧
    reads (utf16E false) utf8E fourAtATime 1 [3, 1, 4, 9, 9] 0 .init
      [0x61, 0xE2, 0x82, 0xAC, 0xC3, 0xA9] =
      some [[0x61, 0, 0xAC], [0x20], [0xE9, 0], [], []] := by
  constructor
  · intro i rest
    simp only [fourAtATime, decide_eq_true_eq, decide_eq_false_iff_not]
    omega
  · decide +kernel

/-- The number of bytes is even, half of a surrogate pair is in one block and the rest in the next. -/
example : reads utf8E (utf16E false) fourAtATime 1 [9, 9, 9] 0 .init
    [0x61, 0, 0x3D, 0xD8, 0, 0xDE, 0x62, 0] =
    some [[0x61], [0xF0, 0x9F, 0x98, 0x80, 0x62], []] := by decide +kernel

/-- A stream that delivers five bytes at a time. -/
def fiveAtATime (_ : Nat) (rest : List Byte) : Nat × Bool := (5, decide (rest.length < 5))

/-- The same odd text is refused or not, depending on how it is delivered. -/
example : reads utf8E (utf16E false) fiveAtATime 1 [9, 9] 0 .init [0x61, 0, 0x62, 0, 0x63] =
      some [[0x61, 0x62], []] ∧
    reads utf8E (utf16E false) fourAtATime 1 [9, 9] 0 .init [0x61, 0, 0x62, 0, 0x63] = none := by
  decide +kernel

/-- **C04**, disagreement.  Reading UTF-16 text with an odd number of bytes fails an assertion. -/
theorem C04_read_odd : reads utf8E (utf16E false) fourAtATime 5 [8, 8] 0 .init [0x61, 0, 0x62] =
    none := by decide +kernel

theorem points_of_encoded {dec : List Byte → DecodeResult} (h : GoodDec dec) (encp : Nat → List Byte)
    (P : Nat → Prop) (hp : ∀ p, P p → ∀ rest, dec (encp p ++ rest) = ⟨p, .valid, (encp p).length⟩) :
    ∀ ps : List Nat, (∀ p ∈ ps, P p) → pts dec (ps.flatMap encp) = ps := by
  intro ps
  induction ps with
  | nil => intro _; simp [pts, points]
  | cons p ps ih =>
    intro hall
    rw [List.flatMap_cons]
    have e := hp p (hall p (by simp)) (ps.flatMap encp)
    rw [pts_step h (by rw [e]; exact Int.natCast_nonneg _), e]
    simp only [Int.toNat_natCast, List.drop_left']
    rw [ih (fun q hq => hall q (by simp [hq]))]

theorem enc_of_encodings {e : Encoding} (h : e ∈ [utf8E, utf16E false, utf16E true]) :
    e ∈ encodings := by
  simp only [encodings, List.mem_cons, List.not_mem_nil, or_false] at h ⊢
  exact .inr h

/-- **C04.** Between the Unicode encodings, converting a text made of characters gives the same
characters in the other encoding, so converting back gives the original bytes. -/
theorem C04_unicode_roundtrip (dst src : Encoding) (hd : dst ∈ [utf8E, utf16E false, utf16E true])
    (hs : src ∈ [utf8E, utf16E false, utf16E true]) (ps : List Nat) (hps : ∀ p ∈ ps, IsScalar p)
    (encS encD : Nat → List Byte) (hS : ∀ p ∈ ps, src.enc 4 p = some (encS p))
    (hD : ∀ p ∈ ps, dst.enc 4 p = some (encD p)) (room : List Nat) (hpos : ∀ c ∈ room, 0 < c)
    (hlS : (ps.flatMap encS).length < room.length) (hlD : (ps.flatMap encD).length < room.length) :
    convertInternal dst src room (ps.flatMap encS) = some (ps.flatMap encD) ∧
    convertInternal src dst room (ps.flatMap encD) = some (ps.flatMap encS) := by
  have key : ∀ (d s : Encoding), s ∈ [utf8E, utf16E false, utf16E true] →
      ∀ (eS eD : Nat → List Byte), (∀ p ∈ ps, s.enc 4 p = some (eS p)) →
      (∀ p ∈ ps, d.enc 4 p = some (eD p)) → converted d s (ps.flatMap eS) = ps.flatMap eD := by
    intro d s hs eS eD h1 h2
    have hg := (encodings_good (enc_of_encodings hs)).1
    have hdec : ∀ p, p ∈ ps → ∀ rest, s.dec (eS p ++ rest) = ⟨p, .valid, (eS p).length⟩ := by
      intro p hp rest
      have h1p := h1 p hp
      have hsc := hps p hp
      simp only [List.mem_cons, List.not_mem_nil, or_false] at hs
      rcases hs with rfl | rfl | rfl
      · obtain ⟨e, a, _, b⟩ := C01_utf8_roundtrip p 4 (by unfold IsScalar at hsc; omega)
          (by unfold numBytesUTF8; split <;> (try split) <;> (try split) <;> omega) rest
        have : e = eS p := by
          have h1p : encodeUTF8 4 p = some (eS p) := h1p
          rw [a] at h1p; exact Option.some.inj h1p
        rw [← this]
        exact b
      · obtain ⟨e, a, _, b⟩ := C03_utf16_roundtrip false p 4 hsc (by split <;> omega) rest
        have : e = eS p := by
          have h1p : encodeUTF16 false 4 p = some (eS p) := h1p
          rw [a] at h1p; exact Option.some.inj h1p
        rw [← this]
        exact b
      · obtain ⟨e, a, _, b⟩ := C03_utf16_roundtrip true p 4 hsc (by split <;> omega) rest
        have : e = eS p := by
          have h1p : encodeUTF16 true 4 p = some (eS p) := h1p
          rw [a] at h1p; exact Option.some.inj h1p
        rw [← this]
        exact b
    have := points_of_encoded hg eS (· ∈ ps) hdec ps (fun _ h => h)
    unfold pts at this
    unfold converted
    rw [this]
    rw [List.flatMap_def, List.flatMap_def]
    congr 1
    apply List.map_congr_left
    intro p hp
    rw [h2 p hp]
    rfl
  have e1 := key dst src hs encS encD hS hD
  have e2 := key src dst hd encD encS hD hS
  constructor
  · rw [C04_whole dst src (enc_of_encodings hd) (enc_of_encodings hs) _ room hpos (by rw [e1]; exact hlD),
      e1]
  · rw [C04_whole src dst (enc_of_encodings hs) (enc_of_encodings hd) _ room hpos (by rw [e2]; exact hlS),
      e2]

example : IsScalar 0x20AC ∧ utf8E.enc 4 0x20AC = some [0xE2, 0x82, 0xAC] ∧
    (utf16E true).enc 4 0x20AC = some [0x20, 0xAC] := by
  refine ⟨by unfold IsScalar; omega, by decide, by decide⟩

end Verif.TConv
