import Verif.Esc.Model
import Verif.Esc.Spec
import Verif.Enc.Props
import Verif.Num.Props
/-!
# C10–C13, C45: escaped text, URL escaping, chunked transfer coding, format strings
-/
namespace Verif.Esc
open Verif Verif.Enc

/-! ## The shared escaping loop -/

/-- Every step of the escaping loop either copies/escapes one byte, or a structurally complete
multi-byte sequence. -/
theorem decode_step (b : Byte) (bs : List Byte) :
    (∃ st, decodeUTF8 (b :: bs) = ⟨b.toNat, st, 1⟩) ∨
    (∃ s p t, b :: bs = s ++ t ∧ Sequence s p ∧ 2 ≤ s.length ∧
      decodeUTF8 (b :: bs) = ⟨p, .valid, s.length⟩) := by
  rcases decode_cases b bs with ⟨s, p, hs, ⟨t, ht⟩, he⟩ | ⟨_, he⟩ | ⟨_, he⟩
  · by_cases hl : 2 ≤ s.length
    · exact Or.inr ⟨s, p, t, ht.symm, hs, hl, he⟩
    · left
      cases hs with
      | one a ha =>
        simp only [List.cons_append, List.cons.injEq] at ht
        rw [he, ← ht.1]
        exact ⟨_, rfl⟩
      | two => simp at hl
      | three => simp at hl
      | four => simp at hl
  · exact Or.inl ⟨_, he⟩
  · exact Or.inl ⟨_, he⟩

/-- All bytes of a multi-byte sequence are at least 0x80. -/
theorem Sequence.high {s : List Byte} {p : Nat} (h : Sequence s p) (hl : 2 ≤ s.length) :
    ∀ c ∈ s, 0x80 ≤ c.toNat := by
  cases h with
  | one => simp at hl
  | two a b h1 h2 hb =>
    intro c hc
    have := hb.1
    simp only [List.mem_cons, List.not_mem_nil, or_false] at hc
    rcases hc with rfl | rfl <;> omega
  | three a b c h1 h2 hb hc =>
    intro d hd
    have := hb.1
    have := hc.1
    simp only [List.mem_cons, List.not_mem_nil, or_false] at hd
    rcases hd with rfl | rfl | rfl <;> omega
  | four a b c d h1 h2 hb hc hd =>
    intro e he
    have := hb.1
    have := hc.1
    have := hd.1
    simp only [List.mem_cons, List.not_mem_nil, or_false] at he
    rcases he with rfl | rfl | rfl | rfl <;> omega

theorem NoOverlongAscii.suffix {s t : List Byte} (h : NoOverlongAscii s) (ht : t <:+ s) :
    NoOverlongAscii t :=
  fun u q p hu => h u q p (hu.trans ht)

theorem NoOverlongAscii.drop {s t : List Byte} (h : NoOverlongAscii (s ++ t)) :
    NoOverlongAscii t := h.suffix (List.suffix_append s t)

/-- Induction principle matching the escaping loop: a property relating the output of the loop to
its input is established by giving the step for one byte and the step for a multi-byte sequence. -/
theorem escapeLoop_induct (emit : Int → List Byte → List Byte) (R : List Byte → List Byte → Prop)
    (hnil : R [] [])
    (hone : ∀ b bs o, R bs o → R (b :: bs) (emit b.toNat [b] ++ o))
    (hmulti : ∀ s p t o, Sequence s p → 2 ≤ s.length → R t o → R (s ++ t) (emit p s ++ o)) :
    ∀ fuel pts s, s.length ≤ fuel → ∃ o, escapeLoop emit 0 fuel pts s = some o ∧ R s o := by
  intro fuel
  induction fuel with
  | zero =>
    intro pts s h
    have : s = [] := List.length_eq_zero_iff.mp (by omega)
    subst this
    exact ⟨[], rfl, hnil⟩
  | succ fuel ih =>
    intro pts s h
    cases s with
    | nil => exact ⟨[], rfl, hnil⟩
    | cons b bs =>
      rcases decode_step b bs with ⟨st, he⟩ | ⟨s, p, t, hst, hs, hl, he⟩
      · obtain ⟨o, h1, h2⟩ := ih (pts + 1) bs (by simp at h; omega)
        refine ⟨emit b.toNat [b] ++ o, ?_, hone b bs o h2⟩
        unfold escapeLoop
        simp only [he]
        rw [if_neg (by omega)]
        simp only [List.drop_succ_cons, List.drop_zero, h1]
        rfl
      · have hlen : s.length + t.length = bs.length + 1 := by
          have := congrArg List.length hst
          simpa using this.symm
        obtain ⟨o, h1, h2⟩ := ih (pts + 1) t (by simp at h; omega)
        refine ⟨emit p s ++ o, ?_, ?_⟩
        · unfold escapeLoop
          simp only [he]
          rw [if_neg (by omega), hst, List.drop_left, List.take_left, h1]
        · rw [hst]; exact hmulti s p t o hs hl h2

theorem byte_ne_int (b d : Byte) (k : Int) (hk : (d.toNat : Int) = k) (h : b ≠ d) :
    ¬ ((b.toNat : Int) = k) := by
  intro he
  exact h (byte_ext (by omega))

/-! ## C11 -/

/-- **C11.** The escaped form of any byte string (with any limit on the number of points) contains
no `<`, `>` or `"` and every `&` in it starts one of the four entities: it resolves to some text. -/
theorem C11_no_markup (maxPoints : Nat) (s : List Byte) :
    ∃ o t, xmlEscape maxPoints s = some o ∧ Resolves o t ∧
      (∀ c ∈ o, c ≠ 60 ∧ c ≠ 62 ∧ c ≠ 34) := by
  have hdots : Resolves [46, 46, 46] [46, 46, 46] := by
    refine .other _ ?_ ?_ ?_ ?_ (.other _ ?_ ?_ ?_ ?_ (.other _ ?_ ?_ ?_ ?_ .nil)) <;> decide
  have hclean : ∀ o t, Resolves o t → ∀ c ∈ o, c ≠ 60 ∧ c ≠ 62 ∧ c ≠ 34 := by
    intro o t h
    induction h with
    | nil => simp
    | lt _ ih | gt _ ih | quot _ ih | amp _ ih =>
      intro c hc
      simp only [List.mem_cons] at hc
      repeat' (first | (rcases hc with rfl | hc) | exact ih c hc)
      all_goals decide
    | other d h1 h2 h3 h4 _ ih =>
      intro c hc
      rcases List.mem_cons.mp hc with rfl | hc
      · exact ⟨h2, h3, h4⟩
      · exact ih c hc
  have hbytes : ∀ s o t, (∀ c ∈ s, (0x80 ≤ c.toNat)) → Resolves o t → Resolves (s ++ o) (s ++ t) := by
    intro s o t hs hr
    induction s with
    | nil => exact hr
    | cons c cs ih =>
      have hc := hs c (by simp)
      have hne : ∀ d : Byte, d.toNat < 0x80 → c ≠ d := by
        rintro d hd rfl; omega
      exact .other c (hne _ (by decide)) (hne _ (by decide)) (hne _ (by decide)) (hne _ (by decide))
        (ih fun d hd => hs d (by simp [hd]))
  have hemit : ∀ (p : Int) (bs o t : List Byte), (bs = [UInt8.ofNat p.toNat] ∧ 0 ≤ p ∧ p < 256 ∨
      (∀ c ∈ bs, 0x80 ≤ c.toNat)) → Resolves o t → ∃ t', Resolves (emitXML p bs ++ o) t' := by
    intro p bs o t hb hr
    unfold emitXML
    split
    · exact ⟨_, .lt hr⟩
    · split
      · exact ⟨_, .gt hr⟩
      · split
        · exact ⟨_, .quot hr⟩
        · split
          · exact ⟨_, .amp hr⟩
          · rcases hb with ⟨rfl, h1, h2⟩ | hb
            · rename_i n1 n2 n3 n4
              have ht : (UInt8.ofNat p.toNat).toNat = p.toNat := toNat_ofNat_byte (by omega)
              have hne : ∀ d : Byte, p ≠ d.toNat → UInt8.ofNat p.toNat ≠ d := by
                rintro d hd rfl; rw [ht] at hd; omega
              exact ⟨_, .other _ (hne _ (by simpa using n4)) (hne _ (by simpa using n1))
                (hne _ (by simpa using n2)) (hne _ (by simpa using n3)) hr⟩
            · exact ⟨_, hbytes bs o t hb hr⟩
  suffices H : ∀ fuel pts s, s.length ≤ fuel → ∃ o t, escapeLoop emitXML maxPoints fuel pts s = some o ∧
      Resolves o t by
    obtain ⟨o, t, h1, h2⟩ := H s.length 0 s (Nat.le_refl _)
    exact ⟨o, t, h1, h2, hclean o t h2⟩
  intro fuel
  induction fuel with
  | zero =>
    intro pts s h
    have : s = [] := List.length_eq_zero_iff.mp (by omega)
    subst this
    exact ⟨[], [], rfl, .nil⟩
  | succ fuel ih =>
    intro pts s h
    cases s with
    | nil => exact ⟨[], [], rfl, .nil⟩
    | cons b bs =>
      unfold escapeLoop
      by_cases hm : maxPoints > 0 ∧ pts ≥ maxPoints
      · rw [if_pos hm]
        exact ⟨_, _, rfl, hdots⟩
      · rw [if_neg hm]
        rcases decode_step b bs with ⟨st, he⟩ | ⟨s, p, t, hst, hs, hl, he⟩
        · obtain ⟨o, t, h1, h2⟩ := ih (pts + 1) bs (by simp at h; omega)
          obtain ⟨t', h3⟩ := hemit b.toNat [b] o t
            (Or.inl ⟨by simp, by simp, by have := byte_lt b; omega⟩) h2
          refine ⟨_, t', ?_, h3⟩
          simp only [he, List.drop_succ_cons, List.drop_zero, h1]
          rfl
        · have hlen : s.length + t.length = bs.length + 1 := by
            have := congrArg List.length hst
            simpa using this.symm
          obtain ⟨o, t', h1, h2⟩ := ih (pts + 1) t (by simp at h; omega)
          obtain ⟨t'', h3⟩ := hemit p s o t' (Or.inr (Sequence.high hs hl)) h2
          refine ⟨_, t'', ?_, h3⟩
          simp only [he]
          rw [hst, List.drop_left, List.take_left, h1]

example : xmlEscape 0 [60, 97, 38, 62] = some [38, 108, 116, 59, 97, 38, 97, 109, 112, 59, 38, 103, 116, 59] := by
  decide

/-- **C11.** Resolving entities is unambiguous, so "the" original text is well defined. -/
theorem C11_resolve_unique {o s t : List Byte} (h1 : Resolves o s) (h2 : Resolves o t) : s = t := by
  induction h1 generalizing t with
  | nil => cases h2; rfl
  | lt _ ih =>
    cases h2 with
    | lt h => rw [ih h]
    | other _ h => exact absurd rfl h
  | gt _ ih =>
    cases h2 with
    | gt h => rw [ih h]
    | other _ h => exact absurd rfl h
  | quot _ ih =>
    cases h2 with
    | quot h => rw [ih h]
    | other _ h => exact absurd rfl h
  | amp _ ih =>
    cases h2 with
    | amp h => rw [ih h]
    | other _ h => exact absurd rfl h
  | other c hc _ _ _ _ ih =>
    cases h2 with
    | lt | gt | quot | amp => exact absurd rfl hc
    | other _ _ _ _ _ h => rw [ih h]

example : Resolves [38, 108, 116, 59] [60] := .lt .nil

/-- **C11**, for every text without overlong spellings of ASCII characters (in particular all
well-formed UTF-8): resolving the entities of the escaped form gives the original bytes back. -/
theorem C11_roundtrip_partial (s : List Byte) (h : NoOverlongAscii s) :
    ∃ o, xmlEscape 0 s = some o ∧ Resolves o s := by
  obtain ⟨o, h1, h2⟩ := escapeLoop_induct emitXML (fun s o => NoOverlongAscii s → Resolves o s)
    (fun _ => .nil)
    (by
      intro b bs o ih hno
      have hr := ih (NoOverlongAscii.drop (s := [b]) hno)
      unfold emitXML
      by_cases h1 : b = 60
      · subst h1; exact .lt hr
      · by_cases h2 : b = 62
        · subst h2; exact .gt hr
        · by_cases h3 : b = 34
          · subst h3; exact .quot hr
          · by_cases h4 : b = 38
            · subst h4; exact .amp hr
            · rw [if_neg (byte_ne_int b 60 60 rfl h1), if_neg (byte_ne_int b 62 62 rfl h2),
                if_neg (byte_ne_int b 34 34 rfl h3), if_neg (byte_ne_int b 38 38 rfl h4)]
              exact .other b h4 h1 h2 h3 hr)
    (by
      intro q p t o hq hl ih hno
      have hr := ih (NoOverlongAscii.drop hno)
      have hp : 0x80 ≤ p := hno (q ++ t) q p (List.suffix_refl _) hq (List.prefix_append _ _) hl
      unfold emitXML
      rw [if_neg (by omega), if_neg (by omega), if_neg (by omega), if_neg (by omega)]
      have hhigh := Sequence.high hq hl
      clear hno hq hl
      induction q with
      | nil => exact hr
      | cons c cs ihc =>
        have hc := hhigh c (by simp)
        have hne : ∀ d : Byte, d.toNat < 0x80 → c ≠ d := by
          rintro d hd rfl; omega
        exact .other c (hne _ (by decide)) (hne _ (by decide)) (hne _ (by decide))
          (hne _ (by decide)) (ihc (fun d hd => hhigh d (by simp [hd]))))
    s.length 0 s (Nat.le_refl _)
  exact ⟨o, h1, h2 h⟩

/-- Plain ASCII text has no overlong spellings (non-vacuity of the hypothesis above). -/
theorem noOverlong_ascii (s : List Byte) (h : ∀ c ∈ s, c.toNat < 0x80) : NoOverlongAscii s := by
  intro t q p ht hq hp hl
  exfalso
  have hhigh := Sequence.high hq hl
  cases q with
  | nil => simp at hl
  | cons c cs =>
    have h1 := hhigh c (by simp)
    have h2 := h c (ht.subset (hp.subset (by simp)))
    omega

example : NoOverlongAscii [60, 97, 62] := noOverlong_ascii _ (by decide)

/-- **C11** fails for overlong input: the two bytes C0 BC (an overlong spelling of `<`) are escaped
to `&lt;`, which resolves to the single byte `<`. -/
theorem C11_overlong_not_restored :
    xmlEscape 0 [0xC0, 0xBC] = some [38, 108, 116, 59] ∧ Resolves [38, 108, 116, 59] [60] :=
  ⟨by decide, .lt .nil⟩

/-! ## C10 -/

/-- Bytes that the reader takes literally inside double quotes. -/
theorem quotedLoop_plain (c : Byte) (rest : List Byte) (h1 : c ≠ 34) (h2 : c ≠ 92) (h3 : c ≠ 13)
    (h4 : c ≠ 10) (n : Nat) (hn : n < 2) :
    quotedLoop 34 n false (c :: rest) = QResult.push [c] (quotedLoop 34 0 false rest) := by
  rw [quotedLoop.eq_def]
  dsimp only
  rw [if_neg h1, if_neg (by omega)]
  simp only [Bool.false_eq_true, ↓reduceIte]
  rw [if_neg (by simp [h3, h4]), if_neg h2]
  rfl

theorem quotedLoop_escape (code b : Byte) (rest : List Byte) (h : unescape code = some b)
    (h1 : code ≠ 13) (h2 : code ≠ 10) (n : Nat) (hn : n < 2) :
    quotedLoop 34 n false (92 :: code :: rest) = QResult.push [b] (quotedLoop 34 0 false rest) := by
  rw [quotedLoop.eq_def]
  dsimp only
  rw [if_neg (by decide), if_neg (by omega)]
  simp only [Bool.false_eq_true, ↓reduceIte]
  rw [if_neg (by decide), if_neg (by simp [h1, h2]), h]
  rfl

theorem push_push (a b : List Byte) (r : QResult) :
    QResult.push a (QResult.push b r) = QResult.push (a ++ b) r := by
  simp [QResult.push]

/-- **C10**, for every non-empty text whose only control characters are tab, CR and LF and that has
no overlong spellings of ASCII characters: printing it escaped between double quotes and reading
the result, followed by anything, returns exactly the text, no error, and stops right after the
closing quote.

Missing from the full statement: the empty string (see `C10_empty_string`), other control
characters (`C10_control_characters`) and overlong input, for which the claim is false. -/
theorem C10_roundtrip_partial (s : List Byte) (hne : s ≠ []) (hno : NoOverlongAscii s)
    (hctl : ∀ c ∈ s, 32 ≤ c.toNat ∨ c = 9 ∨ c = 10 ∨ c = 13) (single : Bool) (rest : List Byte) :
    ∃ o, escapeString 0 s = some o ∧
      readQuoted single (34 :: (o ++ 34 :: rest)) = ⟨s, [], rest⟩ := by
  obtain ⟨o, h1, h2⟩ := escapeLoop_induct emitEscaped
    (fun s o => NoOverlongAscii s → (∀ c ∈ s, 32 ≤ c.toNat ∨ c = 9 ∨ c = 10 ∨ c = 13) →
      ∀ n, n < 2 → (s ≠ [] ∨ n = 0) →
      quotedLoop 34 n false (o ++ 34 :: rest) = ⟨s, [], rest⟩)
    (by
      intro _ _ n hn h0
      rcases h0 with h0 | h0
      · exact absurd rfl h0
      · subst h0
        rw [quotedLoop.eq_def]
        simp)
    (by
      intro b bs o ih hno hctl n hn _
      have hr := ih (NoOverlongAscii.drop (s := [b]) hno) (fun c hc => hctl c (by simp [hc]))
        0 (by omega) (Or.inr rfl)
      have hb := hctl b (by simp)
      have fin : ∀ c : Byte, QResult.push [c] ⟨bs, [], rest⟩ = ⟨c :: bs, [], rest⟩ := fun c => rfl
      unfold emitEscaped
      by_cases e1 : b = 34
      · subst e1
        refine (quotedLoop_escape 34 34 (o ++ 34 :: rest) (by decide) (by decide) (by decide) n hn).trans ?_
        rw [hr, fin]
      by_cases e2 : b = 92
      · subst e2
        refine (quotedLoop_escape 92 92 (o ++ 34 :: rest) (by decide) (by decide) (by decide) n hn).trans ?_
        rw [hr, fin]
      by_cases e3 : b = 13
      · subst e3
        refine (quotedLoop_escape 114 13 (o ++ 34 :: rest) (by decide) (by decide) (by decide) n hn).trans ?_
        rw [hr, fin]
      by_cases e4 : b = 10
      · subst e4
        refine (quotedLoop_escape 110 10 (o ++ 34 :: rest) (by decide) (by decide) (by decide) n hn).trans ?_
        rw [hr, fin]
      by_cases e5 : b = 9
      · subst e5
        refine (quotedLoop_escape 116 9 (o ++ 34 :: rest) (by decide) (by decide) (by decide) n hn).trans ?_
        rw [hr, fin]
      have hge : 32 ≤ b.toNat := by
        rcases hb with h | h | h | h
        · exact h
        · exact absurd h e5
        · exact absurd h e4
        · exact absurd h e3
      rw [if_neg (byte_ne_int b 34 34 rfl e1), if_neg (byte_ne_int b 92 92 rfl e2),
        if_neg (byte_ne_int b 13 13 rfl e3), if_neg (byte_ne_int b 10 10 rfl e4),
        if_neg (byte_ne_int b 9 9 rfl e5), if_pos (by omega)]
      refine (quotedLoop_plain b (o ++ 34 :: rest) e1 e2 e3 e4 n hn).trans ?_
      rw [hr, fin])
    (by
      intro q p t o hq hl ih hno hctl n hn _
      have hr := ih (NoOverlongAscii.drop hno) (fun c hc => hctl c (by simp [hc])) 0 (by omega)
        (Or.inr rfl)
      have hp : 0x80 ≤ p := hno (q ++ t) q p (List.suffix_refl _) hq (List.prefix_append _ _) hl
      unfold emitEscaped
      rw [if_neg (by omega), if_neg (by omega), if_neg (by omega), if_neg (by omega),
        if_neg (by omega), if_pos (by omega)]
      have hhigh := Sequence.high hq hl
      have hqn : q ≠ [] := by intro h; rw [h] at hl; simp at hl
      clear hno hq hl hctl hp ih
      have key : ∀ (q : List Byte), (∀ c ∈ q, 0x80 ≤ c.toNat) → q ≠ [] → ∀ n, n < 2 →
          quotedLoop 34 n false (q ++ (o ++ 34 :: rest)) = QResult.push q ⟨t, [], rest⟩ := by
        intro q
        induction q with
        | nil => intro _ h; exact absurd rfl h
        | cons c cs ihc =>
          intro hh _ n hn
          have hc := hh c (by simp)
          have hne : ∀ d : Byte, d.toNat < 0x80 → c ≠ d := by
            rintro d hd rfl; omega
          rw [List.cons_append, quotedLoop_plain c _ (hne _ (by decide)) (hne _ (by decide))
            (hne _ (by decide)) (hne _ (by decide)) n hn]
          by_cases hcs : cs = []
          · subst hcs
            rw [List.nil_append, hr]
          · rw [ihc (fun d hd => hh d (by simp [hd])) hcs 0 (by omega), push_push]
            rfl
      rw [List.append_assoc, key q hhigh hqn n hn]
      simp [QResult.push])
    s.length 0 s (Nat.le_refl _)
  refine ⟨o, h1, ?_⟩
  unfold readQuoted
  simp only [true_or, ↓reduceIte]
  exact h2 hno hctl 1 (by omega) (Or.inl hne)

example : escapeString 0 [97, 34, 10] = some [97, 92, 34, 92, 110] ∧
    readQuoted false [34, 97, 92, 34, 92, 110, 34, 44] = ⟨[97, 34, 10], [], [44]⟩ := by decide

/-- **C10** fails for other control characters: they are printed as backslash and two hex digits,
which the reader rejects. -/
theorem C10_control_characters :
    escapeString 0 [1] = some [92, 48, 49] ∧
    readQuoted false [34, 92, 48, 49, 34] = ⟨[49], [.badEscapeSequence], []⟩ := by decide

theorem multiline_loop (q : Byte) (hq : q ≠ 13 ∧ q ≠ 10 ∧ q ≠ 92) (rest : List Byte) : ∀ (s : List Byte) (n : Nat),
    n < 3 → 92 ∉ s → ¬ [q, q, q] <:+: List.replicate n q ++ s →
    (List.replicate n q ++ s).getLast? ≠ some q →
    quotedLoop q n true (s ++ q :: q :: q :: rest) =
      ⟨List.replicate n q ++ s.filter (· != 13), [], rest⟩
  | [], n, hn, h92, htri, hlast => by
    have : n = 0 := by
      rcases n with _ | n
      · rfl
      · simp [List.getLast?_replicate] at hlast
    subst this
    rw [List.nil_append, quotedLoop.eq_def]
    dsimp only
    rw [if_pos rfl, if_pos rfl, if_pos rfl, quotedLoop.eq_def]
    dsimp only
    rw [if_pos rfl, if_neg (by decide), if_neg (by decide), quotedLoop.eq_def]
    dsimp only
    rw [if_pos rfl, if_neg (by decide), if_pos rfl, if_pos rfl]
    rfl
  | c :: s, n, hn, h92, htri, hlast => by
    simp only [List.mem_cons, not_or] at h92
    by_cases hc : c = q
    · subst hc
      have e : List.replicate n c ++ c :: s = List.replicate (n + 1) c ++ s := by
        rw [List.replicate_succ', List.append_assoc]; rfl
      rw [e] at htri hlast
      have hn2 : n < 2 := by
        refine Classical.byContradiction fun h => htri ?_
        obtain rfl : n = 2 := by omega
        exact ⟨[], s, rfl⟩
      have ih := multiline_loop c hq rest s (n + 1) (by omega) h92.2 htri hlast
      have e2 : List.replicate (n + 1) c ++ s.filter (· != 13) = List.replicate n c ++ (c :: s).filter (· != 13) := by
        rw [List.filter_cons_of_pos (by simpa using hq.1), List.replicate_succ', List.append_assoc]; rfl
      rw [e2] at ih
      rw [List.cons_append, quotedLoop.eq_def]
      dsimp only
      rw [if_pos rfl]
      by_cases h0 : n = 0
      · subst h0
        rw [if_pos rfl, if_pos rfl]
        exact ih
      · rw [if_neg h0, if_neg (by omega)]
        exact ih
    · have htri' : ¬ [q, q, q] <:+: List.replicate 0 q ++ s := by
        intro h
        refine htri (h.trans ?_)
        exact ⟨List.replicate n q ++ [c], [], by simp⟩
      have hlast' : (List.replicate 0 q ++ s).getLast? ≠ some q := by
        intro h
        apply hlast
        rw [List.replicate_zero, List.nil_append] at h
        rw [List.getLast?_append, List.getLast?_cons, h]
        rfl
      have ih := multiline_loop q hq rest s 0 (by omega) h92.2 htri' hlast'
      rw [List.replicate_zero, List.nil_append] at ih
      rw [List.cons_append, quotedLoop.eq_def]
      dsimp only
      rw [if_neg hc, if_neg (by simp), ih]
      by_cases h13 : c = 13
      · subst h13
        simp [QResult.push]
      · by_cases h10 : c = 10
        · subst h10
          simp [QResult.push]
        · rw [if_neg (not_or.mpr ⟨h13, h10⟩), if_neg (Ne.symm h92.1)]
          simp [QResult.push, h13]

/-- **C10.** Strings over several lines: between three quotes and the next three quotes, anything except
backslashes is read as it is — single and double quotes and line ends included — but for carriage
returns. -/
theorem C10_multiline (q : Byte) (single : Bool) (hq : q = 34 ∨ q = 39 ∧ single = true) (s rest : List Byte)
    (h92 : 92 ∉ s) (htri : ¬ [q, q, q] <:+: s) (hlast : s.getLast? ≠ some q) :
    readQuoted single (q :: q :: q :: (s ++ q :: q :: q :: rest)) = ⟨s.filter (· != 13), [], rest⟩ := by
  have h := multiline_loop q (by rcases hq with rfl | ⟨rfl, -⟩ <;> decide) rest s 0 (by omega) h92
    (by simpa using htri) (by simpa using hlast)
  rw [List.replicate_zero, List.nil_append] at h
  rw [readQuoted, if_pos (by rcases hq with h | ⟨h, h'⟩ <;> simp [h, *])]
  rw [← h, quotedLoop.eq_def]
  dsimp only
  rw [if_pos rfl, if_neg (by decide), if_neg (by decide), quotedLoop.eq_def]
  dsimp only
  rw [if_pos rfl, if_neg (by decide), if_pos rfl, if_neg (by decide)]

/-- `"""a"b""` newline `c"""`. -/
example : readQuoted false [34, 34, 34, 97, 34, 98, 34, 34, 10, 99, 34, 34, 34, 44] =
    ⟨[97, 34, 98, 34, 34, 10, 99], [], [44]⟩ :=
  C10_multiline 34 false (.inl rfl) [97, 34, 98, 34, 34, 10, 99] [44] (by decide) (by decide) (by decide)

/-- **C10** fails for the empty string at the end of input and before another quote: `""` is only
recognised once a different byte follows. -/
theorem C10_empty_string :
    readQuoted false [34, 34] = ⟨[], [.unexpectedEndOfFile], []⟩ ∧
    readQuoted false [34, 34, 44] = ⟨[], [], [44]⟩ ∧
    readQuoted false [34, 34, 34, 97, 34] = ⟨[97], [.unexpectedEndOfFile], []⟩ := by decide

/-! ## C12 -/

theorem printHexByte (c : Byte) : ∃ h, Num.printU64 c.toNat 16 false = some h ∧
    ∃ x y a b, (Str.upperAsc (48 :: h)).drop ((Str.upperAsc (48 :: h)).length - 2) = [x, y] ∧
      upperHex x = some a ∧ upperHex y = some b ∧ a * 16 + b = c.toNat := by
  have H : ∀ n < 256, ∃ h, Num.printU64 n 16 false = some h ∧
      (match (Str.upperAsc (48 :: h)).drop ((Str.upperAsc (48 :: h)).length - 2) with
       | [x, y] => (match upperHex x, upperHex y with
         | some a, some b => a * 16 + b == n
         | _, _ => false)
       | _ => false) = true := by
    have : ∀ n < 256, (match Num.printU64 n 16 false with
      | some h => (match (Str.upperAsc (48 :: h)).drop ((Str.upperAsc (48 :: h)).length - 2) with
        | [x, y] => (match upperHex x, upperHex y with
          | some a, some b => a * 16 + b == n
          | _, _ => false)
        | _ => false)
      | none => false) = true := by decide +kernel
    intro n hn
    have := this n hn
    cases hp : Num.printU64 n 16 false with
    | none => rw [hp] at this; simp at this
    | some h => rw [hp] at this; exact ⟨h, rfl, this⟩
  obtain ⟨h, h1, h2⟩ := H c.toNat (byte_lt c)
  refine ⟨h, h1, ?_⟩
  split at h2
  · rename_i x y heq
    split at h2
    · rename_i a b ha hb
      exact ⟨x, y, a, b, heq, ha, hb, by simpa using h2⟩
    · simp at h2
  · simp at h2

theorem urlPlain_iff (c : Byte) : urlPlain c = true ↔ Unreserved c := by
  revert c
  apply forall_byte
  decide +kernel

/-- **C12.** URL escaping succeeds on every byte string; strict percent-decoding (which accepts only
unreserved characters and `%XX` with upper-case digits) gives the original back. -/
theorem C12_roundtrip (s : List Byte) : ∃ o, urlEscape s = some o ∧ pctDecode o = some s := by
  induction s with
  | nil => exact ⟨[], rfl, rfl⟩
  | cons c cs ih =>
    obtain ⟨o, h1, h2⟩ := ih
    by_cases hc : urlPlain c = true
    · have hu := (urlPlain_iff c).mp hc
      have hne : c ≠ 37 := by
        rintro rfl; revert hu; decide
      refine ⟨c :: o, by simp [urlEscape, h1, hc], ?_⟩
      unfold pctDecode
      rw [if_neg hne, if_pos hu, h2]
      rfl
    · obtain ⟨h, e1, x, y, a, b, e2, e3, e4, e5⟩ := printHexByte c
      refine ⟨37 :: x :: y :: o, ?_, ?_⟩
      · simp only [urlEscape, h1, hc, e1, e2]
        rfl
      · simp only [pctDecode, ↓reduceIte, e3, e4, h2, e5]
        simp

example : urlEscape [47, 97, 0xE9] = some [37, 50, 70, 97, 37, 69, 57] := by decide

/-- **C12.** Distinct strings have distinct escaped forms. -/
theorem C12_injective (s t : List Byte) (h : urlEscape s = urlEscape t) : s = t := by
  obtain ⟨o, h1, h2⟩ := C12_roundtrip s
  obtain ⟨o', h1', h2'⟩ := C12_roundtrip t
  rw [h1, h1'] at h
  rw [Option.some.inj h, h2'] at h2
  exact (Option.some.inj h2).symm

example : urlEscape [32] ≠ urlEscape [33] := by decide

/-! ## C13 -/

theorem takeWhile_append_stop {p : Byte → Bool} (a b : List Byte) (ha : ∀ c ∈ a, p c = true)
    (hb : ∀ c ∈ b.head?, p c = false) :
    (a ++ b).takeWhile p = a ∧ (a ++ b).dropWhile p = b := by
  induction a with
  | nil =>
    cases b with
    | nil => simp
    | cons d ds =>
      have := hb d (by simp)
      simp [this]
  | cons c cs ih =>
    have hc := ha c (by simp)
    obtain ⟨h1, h2⟩ := ih fun d hd => ha d (by simp [hd])
    simp [hc, h1, h2]

theorem digits_append_stop (a b : List Byte) (ha : ∀ c ∈ a, Num.isDigit 16 c = true)
    (hb : ∀ c ∈ b.head?, Num.isDigit 16 c = false) :
    Num.digitsOf 16 (a ++ b) = a ∧ Num.afterDigits 16 (a ++ b) = b :=
  takeWhile_append_stop a b ha hb

theorem printHex_digits (n : Nat) (hn : n < 2 ^ 64) : ∃ h, Num.printU64 n 16 true = some h ∧
    h ≠ [] ∧ Num.numeral 16 0 h = n ∧ ∀ c ∈ h, Num.isDigit 16 c = true := by
  obtain ⟨h, h1, h2, h3, h4, _, _⟩ := Num.C08_print_canonical n 16 true hn (by decide) (by decide)
  refine ⟨h, h1, h4, h2, ?_⟩
  intro c hc
  obtain ⟨⟨d, hd, hs⟩, _⟩ := h3 c hc
  simp [Num.isDigit, hs, hd]

/-- **C13.** In chunk mode, for every sequence of non-empty writes and whatever bytes follow on the
connection, a receiver of the chunked coding recovers exactly the concatenation of the writes and
is left with exactly the following bytes. -/
theorem C13_chunked_roundtrip (ws : List (List Byte)) (hne : ∀ w ∈ ws, w ≠ [])
    (hlen : ∀ w ∈ ws, w.length < 2 ^ 32) (rest : List Byte) :
    ∃ wire, chunkResponse true ws = some wire ∧
      dechunk (ws.length + 1) (wire ++ rest) = some (ws.flatten, rest) := by
  induction ws with
  | nil =>
    refine ⟨_, rfl, ?_⟩
    have hd := digits_append_stop [48] ([13, 10, 13, 10] ++ rest)
      (by decide) (by simp; decide)
    unfold dechunk
    dsimp only
    rw [show [48, 13, 10, 13, 10] ++ rest = [48] ++ ([13, 10, 13, 10] ++ rest) from rfl, hd.1, hd.2]
    rw [if_neg (by decide)]
    simp only [crlf, List.cons_append, and_self, ↓reduceIte]
    rw [if_pos (by decide)]
    rfl
  | cons w ws ih =>
    obtain ⟨wire, h1, h2⟩ := ih (fun v hv => hne v (by simp [hv])) (fun v hv => hlen v (by simp [hv]))
    have hw := hne w (by simp)
    have hwl : 0 < w.length := by
      cases w with
      | nil => exact absurd rfl hw
      | cons => simp
    obtain ⟨h, p1, p2, p3, p4⟩ := printHex_digits w.length (by have := hlen w (by simp); omega)
    refine ⟨h ++ [13, 10] ++ w ++ [13, 10] ++ wire, ?_, ?_⟩
    · simp only [chunkResponse, chunkWrite, ↓reduceIte, gt_iff_lt, hwl, p1, h1]
    · have hd := digits_append_stop h
        ([13, 10] ++ (w ++ ([13, 10] ++ (wire ++ rest)))) p4 (by simp; decide)
      have hshape : h ++ [13, 10] ++ w ++ [13, 10] ++ wire ++ rest =
          h ++ ([13, 10] ++ (w ++ ([13, 10] ++ (wire ++ rest)))) := by simp
      rw [List.length_cons]
      unfold dechunk
      dsimp only
      rw [hshape, hd.1, hd.2, if_neg p2, p3]
      simp only [crlf, List.cons_append, List.nil_append, and_self, ↓reduceIte]
      rw [if_neg (by omega), if_neg (by rw [List.length_append]; omega), List.drop_left,
        List.take_left]
      simp only [and_self, ↓reduceIte]
      rw [h2]
      rfl

example : chunkResponse true [[97, 98], [99]] =
    some [50, 13, 10, 97, 98, 13, 10, 49, 13, 10, 99, 13, 10, 48, 13, 10, 13, 10] := by decide

/-- **C13.** The assertion can only fail on an empty write, and always does in chunk mode. -/
theorem C13_empty_write_asserts (w : List Byte) (hlen : w.length < 2 ^ 32) :
    chunkWrite true w = none ↔ w = [] := by
  constructor
  · intro h
    cases w with
    | nil => rfl
    | cons c cs =>
      obtain ⟨hx, p1, _⟩ := printHex_digits (c :: cs).length (by omega)
      simp [chunkWrite] at h
      rw [List.length_cons] at p1
      rw [p1] at h
      simp at h
  · rintro rfl; rfl

example : chunkWrite true [] = none := by decide

/-- **C13** fails outside chunk mode (HTTP/1.0 responses): the terminating `0 CRLF CRLF` is written
all the same and becomes part of the body. -/
theorem C13_terminator_in_plain_mode (ws : List (List Byte)) :
    chunkResponse false ws = some (ws.flatten ++ [48, 13, 10, 13, 10]) := by
  induction ws with
  | nil => rfl
  | cons w ws ih =>
    simp only [chunkResponse, chunkWrite, Bool.false_eq_true, ↓reduceIte, ih]
    simp

example : chunkResponse false [[104, 105]] = some [104, 105, 48, 13, 10, 13, 10] := by decide

/-! ## C45 -/

theorem format_plain (c : Byte) (rest : List Byte) (args : List (List Byte)) (h1 : c ≠ 123)
    (h2 : c ≠ 125) : format (c :: rest) args = (format rest args).map (c :: ·) := by
  rw [format.eq_def]
  simp [h1, h2]

/-- **C45.** A format call succeeds exactly if the format string is a well-formed template whose
number of holes is the number of arguments, and then prints the template with the holes filled in
order and doubled braces undoubled. -/
theorem C45_format_exact (f : List Byte) (args : List (List Byte)) (out : List Byte) :
    format f args = some out ↔ ∃ ps, render ps = f ∧ fill ps args = some out := by
  constructor
  · intro h
    induction f, args using format.induct generalizing out with
    | case1 => simp [format] at h; subst h; exact ⟨[], rfl, rfl⟩
    | case2 => simp [format] at h
    | case3 args => simp [format] at h
    | case4 args rest ih =>
      simp only [format, ↓reduceIte, Option.map_eq_some_iff] at h
      obtain ⟨o, h1, rfl⟩ := h
      obtain ⟨ps, e1, e2⟩ := ih o h1
      exact ⟨.lit 123 :: ps, by simp [render, e1], by simp [fill, e2]⟩
    | case5 rest' h1 => simp [format] at h
    | case6 rest' h1 a args' ih =>
      simp only [format, ↓reduceIte] at h
      rw [if_neg (by decide), Option.map_eq_some_iff] at h
      obtain ⟨o, h1, rfl⟩ := h
      obtain ⟨ps, e1, e2⟩ := ih o h1
      exact ⟨.hole :: ps, by simp [render, e1], by simp [fill, e2]⟩
    | case7 args d rest' h1 h2 => simp [format, h1, h2] at h
    | case8 args h1 => simp [format] at h
    | case9 args h1 rest' ih =>
      simp only [format] at h
      rw [if_neg (by decide), if_pos trivial, if_pos trivial, Option.map_eq_some_iff] at h
      obtain ⟨o, h1, rfl⟩ := h
      obtain ⟨ps, e1, e2⟩ := ih o h1
      exact ⟨.lit 125 :: ps, by simp [render, e1], by simp [fill, e2]⟩
    | case10 args d rest' h1 h2 => simp [format, h1] at h
    | case11 c rest args h1 h2 ih =>
      rw [format_plain c rest args h1 h2, Option.map_eq_some_iff] at h
      obtain ⟨o, h3, rfl⟩ := h
      obtain ⟨ps, e1, e2⟩ := ih o h3
      exact ⟨.lit c :: ps, by simp [render, h1, h2, e1], by simp [fill, e2]⟩
  · rintro ⟨ps, rfl, h⟩
    induction ps generalizing args out with
    | nil =>
      cases args with
      | nil => simpa [render, format, fill] using h
      | cons => simp [fill] at h
    | cons p ps ih =>
      cases p with
      | lit c =>
        simp only [fill, Option.map_eq_some_iff] at h
        obtain ⟨o, h1, rfl⟩ := h
        have := ih args o h1
        by_cases e1 : c = 123
        · subst e1
          simp [render, format, this]
        · by_cases e2 : c = 125
          · subst e2
            simp [render, format, this]
          · simp [render, format_plain, e1, e2, this]
      | hole =>
        cases args with
        | nil => simp [fill] at h
        | cons a args =>
          simp only [fill, Option.map_eq_some_iff] at h
          obtain ⟨o, h1, rfl⟩ := h
          have := ih args o h1
          simp [render, format, this]

example : format [97, 123, 125, 123, 123] [[120, 121]] = some [97, 120, 121, 123] ∧
    format [123, 125] [] = none ∧ format [123] [] = none := by decide

end Verif.Esc
