import Verif.Pylon.Lemmas
/-!
# Pylon — properties C34
-/
namespace Verif.Pylon
open Verif Spec
open Verif.Esc (NoOverlongAscii escapeString escapeLoop_induct emitEscaped byte_ne_int)
open Verif.Enc (Sequence)

theorem quoted_escape (code b : Byte) (acc rest : List Byte) (h : unescape code = some b)
    (n : Nat) (hn : n < 2) :
    quoted 34 n false acc (92 :: code :: rest) = quoted 34 0 false (acc ++ [b]) rest := by
  rw [quoted.eq_def]
  dsimp only
  rw [if_neg (by decide), if_neg (by omega), if_neg (by decide), if_neg (by decide),
    if_pos rfl, h]
  rfl

theorem quoted_plain (b : Byte) (acc rest : List Byte) (h1 : b ≠ 34) (h2 : b ≠ 92) (h3 : b ≠ 13)
    (h4 : b ≠ 10) (h5 : b ≠ 255) (n : Nat) (hn : n < 2) :
    quoted 34 n false acc (b :: rest) = quoted 34 0 false (acc ++ [b]) rest := by
  rw [quoted.eq_def]
  dsimp only
  rw [if_neg h1, if_neg (by omega), if_neg h5, if_neg (by simp [h3, h4]), if_neg h2]
  rfl

/-- A good, non-empty text, escaped, is read back from between quotes. -/
theorem quoted_good (s : List Byte) (hg : GoodText s) (rest : List Byte) :
    ∃ o, escapeString 0 s = some o ∧
      ∀ (acc : List Byte) (n : Nat), n < 2 → (s ≠ [] ∨ n = 0) →
        quoted 34 n false acc (o ++ 34 :: rest) = .ok (.text (acc ++ s)) rest := by
  obtain ⟨o, h1, h2⟩ := escapeLoop_induct emitEscaped
    (fun s o => NoOverlongAscii s →
      (∀ c ∈ s, (32 ≤ c.toNat ∨ c = 9 ∨ c = 10 ∨ c = 13) ∧ c ≠ 255) →
      ∀ (acc : List Byte) (n : Nat), n < 2 → (s ≠ [] ∨ n = 0) →
        quoted 34 n false acc (o ++ 34 :: rest) = .ok (.text (acc ++ s)) rest)
    (by
      intro _ _ acc n hn h0
      rcases h0 with h0 | h0
      · exact absurd rfl h0
      · subst h0
        rw [quoted.eq_def]
        simp)
    (by
      intro b bs o ih hno hctl acc n hn _
      have hr := ih (NoOverlongAscii.drop (s := [b]) hno) (fun c hc => hctl c (by simp [hc]))
        (acc ++ [b]) 0 (by omega) (Or.inr rfl)
      have hb := hctl b (by simp)
      have fin : (Out.ok (Token.text ((acc ++ [b]) ++ bs)) rest : Out Token) =
          .ok (.text (acc ++ b :: bs)) rest := by simp
      rw [fin] at hr
      unfold emitEscaped
      by_cases e1 : b = 34
      · subst e1
        exact (quoted_escape 34 34 acc (o ++ 34 :: rest) (by decide) n hn).trans hr
      by_cases e2 : b = 92
      · subst e2
        exact (quoted_escape 92 92 acc (o ++ 34 :: rest) (by decide) n hn).trans hr
      by_cases e3 : b = 13
      · subst e3
        exact (quoted_escape 114 13 acc (o ++ 34 :: rest) (by decide) n hn).trans hr
      by_cases e4 : b = 10
      · subst e4
        exact (quoted_escape 110 10 acc (o ++ 34 :: rest) (by decide) n hn).trans hr
      by_cases e5 : b = 9
      · subst e5
        exact (quoted_escape 116 9 acc (o ++ 34 :: rest) (by decide) n hn).trans hr
      have hge : 32 ≤ b.toNat := by
        rcases hb.1 with h | h | h | h
        · exact h
        · exact absurd h e5
        · exact absurd h e4
        · exact absurd h e3
      rw [if_neg (byte_ne_int b 34 34 rfl e1), if_neg (byte_ne_int b 92 92 rfl e2),
        if_neg (byte_ne_int b 13 13 rfl e3), if_neg (byte_ne_int b 10 10 rfl e4),
        if_neg (byte_ne_int b 9 9 rfl e5), if_pos (by omega)]
      exact (quoted_plain b acc (o ++ 34 :: rest) e1 e2 e3 e4 hb.2 n hn).trans hr)
    (by
      intro q p t o hq hl ih hno hctl acc n hn _
      have hr := ih (NoOverlongAscii.drop hno) (fun c hc => hctl c (by simp [hc]))
        (acc ++ q) 0 (by omega) (Or.inr rfl)
      have hp : 0x80 ≤ p := hno (q ++ t) q p (List.suffix_refl _) hq (List.prefix_append _ _) hl
      unfold emitEscaped
      rw [if_neg (by omega), if_neg (by omega), if_neg (by omega), if_neg (by omega),
        if_neg (by omega), if_pos (by omega)]
      have hhigh := Esc.Sequence.high hq hl
      have hff : ∀ c ∈ q, c ≠ 255 := fun c hc => (hctl c (by simp [hc])).2
      have hqn : q ≠ [] := by intro h; rw [h] at hl; simp at hl
      clear hno hq hl hctl hp ih
      have key : ∀ (q : List Byte), (∀ c ∈ q, 0x80 ≤ c.toNat) → (∀ c ∈ q, c ≠ 255) → q ≠ [] →
          ∀ acc n, n < 2 →
          quoted 34 n false acc (q ++ (o ++ 34 :: rest)) =
            quoted 34 0 false (acc ++ q) (o ++ 34 :: rest) := by
        intro q
        induction q with
        | nil => intro _ _ h; exact absurd rfl h
        | cons c cs ihc =>
          intro hh hf _ acc n hn
          have hc := hh c (by simp)
          have hne : ∀ d : Byte, d.toNat < 0x80 → c ≠ d := by
            rintro d hd rfl; omega
          rw [List.cons_append, quoted_plain c acc _ (hne _ (by decide)) (hne _ (by decide))
            (hne _ (by decide)) (hne _ (by decide)) (hf c (by simp)) n hn]
          by_cases hcs : cs = []
          · subst hcs
            rfl
          · rw [ihc (fun d hd => hh d (by simp [hd])) (fun d hd => hf d (by simp [hd])) hcs _ 0
              (by omega)]
            simp
      rw [List.append_assoc, key q hhigh hff hqn acc n hn, hr, List.append_assoc])
    s.length 0 s (Nat.le_refl _)
  exact ⟨o, h1, fun acc n hn h0 => h2 hg.1 hg.2 acc n hn h0⟩

/-- The text does not go on with a double quote. -/
def NoQuote (rest : List Byte) : Prop := ∀ t, rest ≠ 34 :: t

theorem quote_read (s : List Byte) (hg : GoodText s) :
    ∃ o, quote s = some o ∧ ∀ nl rest, NoQuote rest →
      readToken nl (o ++ rest) = .ok (.text s) rest := by
  obtain ⟨o, h1, -⟩ := quoted_good s hg []
  refine ⟨34 :: (o ++ [34]), by simp [quote, h1], ?_⟩
  intro nl rest hr
  obtain ⟨o', h1', h2⟩ := quoted_good s hg rest
  rw [h1] at h1'
  cases h1'
  have e : (34 :: (o ++ [34])) ++ rest = 34 :: (o ++ 34 :: rest) := by simp
  rw [e]
  have e2 : readToken nl (34 :: (o ++ 34 :: rest)) = quoted 34 1 false [] (o ++ 34 :: rest) := by
    rw [readToken]
    simp
  rw [e2]
  by_cases hs : s = []
  · subst hs
    have : o = [] := by
      have : escapeString 0 [] = some [] := by decide
      rw [this] at h1
      exact (Option.some.inj h1).symm
    subst this
    rw [List.nil_append, quoted.eq_def]
    dsimp only
    rw [if_pos rfl, if_neg (by decide), if_neg (by decide)]
    rw [quoted.eq_def]
    cases rest with
    | nil => simp
    | cons b t =>
      dsimp only
      rw [if_neg (by rintro rfl; exact hr t rfl)]
      simp
  · exact h2 [] 1 (by omega) (Or.inl hs)

theorem readToken_indent (nl : Bool) (d : Nat) (rest : List Byte) :
    readToken nl (indent d ++ rest) = readToken nl rest := by
  induction d with
  | zero => rfl
  | succ d ih =>
    have : indent (d + 1) ++ rest = 32 :: 32 :: (indent d ++ rest) := rfl
    rw [this, readToken, if_pos (by simp), readToken, if_pos (by simp), ih]

theorem readToken_byte (nl : Bool) (rest : List Byte) :
    readToken nl (91 :: rest) = .ok .openSquare rest ∧
    readToken nl (93 :: rest) = .ok .closeSquare rest ∧
    readToken nl (123 :: rest) = .ok .openCurly rest ∧
    readToken nl (125 :: rest) = .ok .closeCurly rest ∧
    readToken nl (58 :: rest) = .ok .colon rest ∧
    readToken nl (44 :: rest) = .ok .comma rest ∧
    readToken true (10 :: rest) = .ok .newLine rest ∧
    readToken nl (32 :: rest) = readToken nl rest := by
  refine ⟨?_, ?_, ?_, ?_, ?_, ?_, ?_, ?_⟩ <;> (conv => lhs; unfold readToken) <;> simp

/-- A token that may begin a value. -/
def Token.starts : Token → Prop
  | .text _ | .openCurly | .openSquare => True
  | _ => False

/-- What reading back a written value means. -/
def ReadsBack (o : List Byte) (n : Node) : Prop :=
  ∀ rest, NoQuote rest → ∃ tok r, tok.starts ∧ (∀ nl, readToken nl (o ++ rest) = .ok tok r) ∧
    ∃ F, ∀ fuel, F ≤ fuel → readExpression fuel tok r = .ok n rest

theorem readArray_value {fuel items rest tok r n r2} (hs : Token.starts tok)
    (h1 : readToken true rest = .ok tok r)
    (h2 : readExpression fuel tok r = .ok n r2) :
    readArray (fuel + 1) items rest = readArray fuel (items ++ [n]) r2 := by
  rw [readArray.eq_def]
  dsimp only
  rw [h1]
  cases tok <;> simp only [Token.starts] at hs <;> dsimp only <;> rw [h2]

theorem readArray_sep {fuel items rest tok r} (hs : tok = .comma ∨ tok = .newLine)
    (h1 : readToken true rest = .ok tok r) :
    readArray (fuel + 1) items rest = readArray fuel items r := by
  rw [readArray.eq_def]
  dsimp only
  rw [h1]
  rcases hs with rfl | rfl <;> rfl

theorem readObject_sep {fuel items g rest tok r} (hs : tok = .comma ∨ tok = .newLine)
    (h1 : readToken true rest = .ok tok r) :
    readObject (fuel + 1) items g rest = readObject fuel items true r := by
  rw [readObject.eq_def]
  dsimp only
  rw [h1]
  rcases hs with rfl | rfl <;> rfl

theorem readObject_value {fuel items g rest k r r1 r2 tok n r3}
    (hg : g = true ∨ items = []) (hk : ∀ p ∈ items, p.1 ≠ k)
    (h1 : readToken true rest = .ok (.text k) r)
    (h2 : readToken false r = .ok .colon r1)
    (h3 : readToken false r1 = .ok tok r2)
    (h4 : readExpression fuel tok r2 = .ok n r3) :
    readObject (fuel + 1) items g rest = readObject fuel (items ++ [(k, n)]) false r3 := by
  rw [readObject.eq_def]
  dsimp only
  rw [h1]
  dsimp only
  have hp : propName (!items.isEmpty) g items (.text k) = some k := by
    unfold propName
    dsimp only
    rw [if_neg (by rcases hg with rfl | rfl <;> simp), if_neg]
    simp only [List.any_eq_true, beq_iff_eq, not_exists, not_and]
    exact fun p hp => hk p hp
  rw [hp]
  dsimp only
  rw [h2]
  dsimp only
  rw [if_neg (by simp), h3]
  dsimp only
  rw [h4]

theorem NoQuote.cons {b : Byte} {t : List Byte} (h : b ≠ 34) : NoQuote (b :: t) := by
  intro u hu
  exact h (List.cons.inj hu).1

mutual
theorem write_reads : ∀ (n : Node), Good n → ∀ d, ∃ o, write d n = some o ∧ ReadsBack o n
  | .text s, hg, d => by
    cases hg with
    | text hs =>
      obtain ⟨o, h1, h2⟩ := quote_read s hs
      refine ⟨o, by rw [write]; exact h1, ?_⟩
      intro rest hr
      refine ⟨.text s, rest, trivial, fun nl => h2 nl rest hr, 1, ?_⟩
      intro fuel hf
      obtain ⟨f, rfl⟩ : ∃ f, fuel = f + 1 := ⟨fuel - 1, by omega⟩
      rw [readExpression]
  | .arr items, hg, d => by
    cases hg with
    | arr hs =>
      obtain ⟨o, h1, h2⟩ := items_read items hs (d + 1)
      refine ⟨91 :: 10 :: (o ++ (indent d ++ [93])), by rw [write, h1], ?_⟩
      intro rest hr
      obtain ⟨F, hF⟩ := h2 [] d rest
      refine ⟨.openSquare, 10 :: (o ++ (indent d ++ 93 :: rest)), trivial, ?_, F + 2, ?_⟩
      · intro nl
        have := (readToken_byte nl (10 :: (o ++ (indent d ++ 93 :: rest)))).1
        simpa using this
      · intro fuel hf
        obtain ⟨f, rfl⟩ : ∃ f, fuel = f + 2 := ⟨fuel - 2, by omega⟩
        rw [readExpression, readArray_sep (.inr rfl) (readToken_byte true _).2.2.2.2.2.2.1]
        exact hF f (by omega)
  | .obj items, hg, d => by
    cases hg with
    | obj hs =>
      obtain ⟨o, h1, h2⟩ := props_read items hs (d + 1)
      refine ⟨123 :: 10 :: (o ++ (indent d ++ [125])), by rw [write, h1], ?_⟩
      intro rest hr
      obtain ⟨F, hF⟩ := h2 [] d rest (by simp)
      refine ⟨.openCurly, 10 :: (o ++ (indent d ++ 125 :: rest)), trivial, ?_, F + 2, ?_⟩
      · intro nl
        have := (readToken_byte nl (10 :: (o ++ (indent d ++ 125 :: rest)))).2.2.1
        simpa using this
      · intro fuel hf
        obtain ⟨f, rfl⟩ : ∃ f, fuel = f + 2 := ⟨fuel - 2, by omega⟩
        rw [readExpression, readObject_sep (.inr rfl) (readToken_byte true _).2.2.2.2.2.2.1]
        exact hF f (by omega)

theorem items_read : ∀ (ns : List Node), GoodItems ns → ∀ d, ∃ o, writeItems d ns = some o ∧
    ∀ acc d' rest, ∃ F, ∀ fuel, F ≤ fuel →
      readArray fuel acc (o ++ (indent d' ++ 93 :: rest)) = .ok (.arr (acc ++ ns)) rest
  | [], _, d => by
    refine ⟨[], by rw [writeItems], ?_⟩
    intro acc d' rest
    refine ⟨1, ?_⟩
    intro fuel hf
    obtain ⟨f, rfl⟩ : ∃ f, fuel = f + 1 := ⟨fuel - 1, by omega⟩
    rw [List.nil_append, readArray, readToken_indent, (readToken_byte true rest).2.1]
    simp
  | n :: ns, hg, d => by
    cases hg with
    | cons hn hns =>
      obtain ⟨a, ha, hra⟩ := write_reads n hn d
      obtain ⟨b, hb, hrb⟩ := items_read ns hns d
      refine ⟨indent d ++ (a ++ ((if ns.isEmpty then [] else [44]) ++ (10 :: b))),
        by rw [writeItems, ha, hb], ?_⟩
      intro acc d' rest
      obtain ⟨F1, hF1⟩ := hrb (acc ++ [n]) d' rest
      obtain ⟨tok, r, hst, hrt, F2, hF2⟩ := hra
        ((if ns.isEmpty then [] else [44]) ++ (10 :: (b ++ (indent d' ++ 93 :: rest)))) (by
          split
          · exact NoQuote.cons (by decide)
          · exact NoQuote.cons (by decide))
      refine ⟨F1 + F2 + 3, ?_⟩
      intro fuel hf
      obtain ⟨f, rfl⟩ : ∃ f, fuel = f + 3 := ⟨fuel - 3, by omega⟩
      have e : (indent d ++ (a ++ ((if ns.isEmpty then [] else [44]) ++ (10 :: b)))) ++
          (indent d' ++ 93 :: rest) =
          indent d ++ (a ++ ((if ns.isEmpty then [] else [44]) ++
            (10 :: (b ++ (indent d' ++ 93 :: rest))))) := by simp
      rw [e, readArray_value hst (by rw [readToken_indent]; exact hrt true) (hF2 (f + 2) (by omega))]
      have last : ∀ g, F1 ≤ g → readArray (g + 1) (acc ++ [n])
          (10 :: (b ++ (indent d' ++ 93 :: rest))) = .ok (.arr (acc ++ n :: ns)) rest := by
        intro g hg
        rw [readArray_sep (.inr rfl) (readToken_byte true _).2.2.2.2.2.2.1, hF1 g hg]
        simp
      split
      · exact last (f + 1) (by omega)
      · refine (readArray_sep (.inl rfl) (readToken_byte true _).2.2.2.2.2.1).trans ?_
        exact last f (by omega)

theorem props_read : ∀ (ns : List (List Byte × Node)), GoodProps ns → ∀ d,
    ∃ o, writeProps d ns = some o ∧
    ∀ acc d' rest, (∀ p ∈ acc, ∀ q ∈ ns, p.1 ≠ q.1) → ∃ F, ∀ fuel, F ≤ fuel →
      readObject fuel acc true (o ++ (indent d' ++ 125 :: rest)) = .ok (.obj (acc ++ ns)) rest
  | [], _, d => by
    refine ⟨[], by rw [writeProps], ?_⟩
    intro acc d' rest _
    refine ⟨1, ?_⟩
    intro fuel hf
    obtain ⟨f, rfl⟩ : ∃ f, fuel = f + 1 := ⟨fuel - 1, by omega⟩
    rw [List.nil_append, readObject, readToken_indent, (readToken_byte true rest).2.2.2.1]
    simp
  | (k, n) :: ns, hg, d => by
    cases hg with
    | cons hk hn hd hns =>
      obtain ⟨q, hq, hrq⟩ := quote_read k hk
      obtain ⟨a, ha, hra⟩ := write_reads n hn d
      obtain ⟨b, hb, hrb⟩ := props_read ns hns d
      refine ⟨indent d ++ (q ++ (58 :: 32 :: (a ++ ((if ns.isEmpty then [] else [44]) ++ (10 :: b))))),
        by rw [writeProps, hq, ha, hb], ?_⟩
      intro acc d' rest hdis
      obtain ⟨F1, hF1⟩ := hrb (acc ++ [(k, n)]) d' rest (by
        intro p hp r hr
        rcases List.mem_append.mp hp with hp | hp
        · exact hdis p hp r (List.mem_cons_of_mem _ hr)
        · rw [List.mem_singleton.mp hp]
          exact fun h => hd r hr h.symm)
      obtain ⟨tok, r, hst, hrt, F2, hF2⟩ := hra
        ((if ns.isEmpty then [] else [44]) ++ (10 :: (b ++ (indent d' ++ 125 :: rest)))) (by
          split
          · exact NoQuote.cons (by decide)
          · exact NoQuote.cons (by decide))
      refine ⟨F1 + F2 + 3, ?_⟩
      intro fuel hf
      obtain ⟨f, rfl⟩ : ∃ f, fuel = f + 3 := ⟨fuel - 3, by omega⟩
      have e : (indent d ++ (q ++ (58 :: 32 :: (a ++ ((if ns.isEmpty then [] else [44]) ++ (10 :: b)))))) ++
          (indent d' ++ 125 :: rest) =
          indent d ++ (q ++ (58 :: 32 :: (a ++ ((if ns.isEmpty then [] else [44]) ++
            (10 :: (b ++ (indent d' ++ 125 :: rest))))))) := by simp
      rw [e, readObject_value (.inl rfl)
        (fun p hp => hdis p hp (k, n) (by simp))
        (by rw [readToken_indent]; exact hrq true _ (NoQuote.cons (by decide)))
        (readToken_byte false _).2.2.2.2.1
        (by rw [(readToken_byte false _).2.2.2.2.2.2.2]; exact hrt false)
        (hF2 (f + 2) (by omega))]
      have last : ∀ g s, F1 ≤ g → readObject (g + 1) (acc ++ [(k, n)]) s
          (10 :: (b ++ (indent d' ++ 125 :: rest))) = .ok (.obj (acc ++ (k, n) :: ns)) rest := by
        intro g s hg
        rw [readObject_sep (.inr rfl) (readToken_byte true _).2.2.2.2.2.2.1, hF1 g hg]
        simp
      split
      · exact last (f + 1) _ (by omega)
      · refine (readObject_sep (.inl rfl) (readToken_byte true _).2.2.2.2.2.1).trans ?_
        exact last f _ (by omega)
end

/-- **C34**, for trees made of text with printable characters, tabs, line feeds and carriage returns
(any valid UTF-8), and distinct names within each object, of any depth and size: writing the tree
and parsing the result gives the same tree.

Missing from the full statement: other control characters, byte FF and overlong spellings of ASCII
characters, where the claim is false (`C34_control_characters`, `C34_byte_ff`). -/
theorem C34_roundtrip_partial (n : Node) (hg : Good n) :
    ∃ s, write 0 n = some s ∧ parse s = .tree n := by
  obtain ⟨o, h1, h2⟩ := write_reads n hg 0
  refine ⟨o, h1, ?_⟩
  obtain ⟨tok, r, hst, hrt, F, hF⟩ := h2 [] (by intro t; simp)
  have hrt0 := hrt false
  rw [List.append_nil] at hrt0
  unfold parse
  rw [hrt0]
  dsimp only
  have hlen := (readToken_len false o tok r hrt0).1
  have hnf := ((total (2 * o.length + 3)).1 tok r (by omega)).1
  have e := mono_expr (Nat.le_add_right (2 * o.length + 3) F) hnf
  rw [hF _ (by omega)] at e
  rw [← e]
  rfl

example : Good (.obj [([97], .arr [.text [98, 10], .text []]), ([34], .obj [])]) := by
  refine .obj (.cons ?_ (.arr (.cons (.text ?_) (.cons (.text ?_) .nil))) (by simp)
    (.cons ?_ (.obj .nil) (by simp) .nil))
  all_goals exact ⟨Esc.noOverlong_ascii _ (by decide), by decide⟩

theorem Spec.DistinctItems.snoc {ns : List Node} {n : Node} (h : DistinctItems ns) (hn : Distinct n) :
    DistinctItems (ns ++ [n]) := by
  induction ns with
  | nil => exact .cons hn .nil
  | cons a as ih =>
    cases h with
    | cons h1 h2 => exact .cons h1 (ih h2)

theorem Spec.DistinctProps.snoc {ns : List (List Byte × Node)} {k : List Byte} {n : Node}
    (h : DistinctProps ns) (hn : Distinct n) (hk : ∀ p ∈ ns, p.1 ≠ k) :
    DistinctProps (ns ++ [(k, n)]) := by
  induction ns with
  | nil => exact .cons hn (by simp) .nil
  | cons a as ih =>
    cases h with
    | cons h1 h2 h3 =>
      refine .cons h1 ?_ (ih h3 (fun p hp => hk p (List.mem_cons_of_mem _ hp)))
      intro p hp
      rcases List.mem_append.mp hp with hp | hp
      · exact h2 p hp
      · rw [List.mem_singleton.mp hp]
        exact fun h => hk _ List.mem_cons_self h.symm

theorem parsed_distinct (fuel : Nat) :
    (∀ tok rest n r, readExpression fuel tok rest = .ok n r → Distinct n) ∧
    (∀ items g rest n r, DistinctProps items → readObject fuel items g rest = .ok n r →
      Distinct n) ∧
    (∀ items rest n r, DistinctItems items → readArray fuel items rest = .ok n r →
      Distinct n) := by
  induction fuel with
  | zero =>
    refine ⟨?_, ?_, ?_⟩
    · intro _ _ _ _ h; simp [readExpression] at h
    · intro _ _ _ _ _ _ h; simp [readObject] at h
    · intro _ _ _ _ _ h; simp [readArray] at h
  | succ fuel ih =>
    obtain ⟨ihE, ihO, ihA⟩ := ih
    refine ⟨?_, ?_, ?_⟩
    · intro tok rest n r h
      rw [readExpression.eq_def] at h
      cases tok <;> dsimp only at h
      case openCurly => exact ihO _ _ _ _ _ .nil h
      case openSquare => exact ihA _ _ _ _ .nil h
      case text s => cases h; exact .text
      all_goals cases h
    · intro items g rest n r hd h
      rw [readObject.eq_def] at h
      dsimp only at h
      cases ht : readToken true rest with
      | bad => rw [ht] at h; cases h
      | hang => rw [ht] at h; cases h
      | fuel => rw [ht] at h; cases h
      | ok tok rest' =>
        rw [ht] at h
        cases tok <;> dsimp only at h
        case closeCurly => cases h; exact .obj hd
        case comma => exact ihO _ _ _ _ _ hd h
        case semicolon => exact ihO _ _ _ _ _ hd h
        case newLine => exact ihO _ _ _ _ _ hd h
        case text s =>
          cases hp : propName (!items.isEmpty) g items (.text s) with
          | none => rw [hp] at h; cases h
          | some name =>
            rw [hp] at h
            have hk : ∀ p ∈ items, p.1 ≠ name := by
              unfold propName at hp
              dsimp only at hp
              split at hp
              · cases hp
              · split at hp
                · cases hp
                · rename_i hne
                  cases hp
                  intro p hp he
                  exact hne (List.any_eq_true.mpr ⟨p, hp, by simp [he]⟩)
            dsimp only at h
            split at h
            · cases h
            · cases h
            · cases h
            · split at h
              · cases h
              · split at h
                · cases h
                · cases h
                · cases h
                · split at h
                  · cases h
                  · cases h
                  · cases h
                  · rename_i hv
                    exact ihO _ _ _ _ _ (hd.snoc (ihE _ _ _ _ hv) hk) h
        all_goals (simp [propName] at h)
    · intro items rest n r hd h
      rw [readArray.eq_def] at h
      dsimp only at h
      have other : ∀ tok rest', (match readExpression fuel tok rest' with
            | .bad => (.bad : Out Node)
            | .hang => .hang
            | .fuel => .fuel
            | .ok v rest2 => readArray fuel (items ++ [v]) rest2) = .ok n r → Distinct n := by
        intro tok rest' h
        split at h
        · cases h
        · cases h
        · cases h
        · rename_i hv
          exact ihA _ _ _ _ (hd.snoc (ihE _ _ _ _ hv)) h
      cases ht : readToken true rest with
      | bad => rw [ht] at h; cases h
      | hang => rw [ht] at h; cases h
      | fuel => rw [ht] at h; cases h
      | ok tok rest' =>
        rw [ht] at h
        cases tok <;> dsimp only at h
        case closeSquare => cases h; exact .arr hd
        case comma => exact ihA _ _ _ _ hd h
        case semicolon => exact ihA _ _ _ _ hd h
        case newLine => exact ihA _ _ _ _ hd h
        all_goals exact other _ _ h

/-- **C34**: whatever the source, a tree that comes back has different names within each object. -/
theorem C34_distinct_names (src : List Byte) (n : Node) (h : parse src = .tree n) : Distinct n := by
  unfold parse at h
  split at h
  · cases h
  · cases h
  · cases h
  · split at h
    · cases h
    · cases h
    · cases h
    · rename_i hv
      split at h
      · cases h
      · cases h
      · cases h
      · cases h
        exact (parsed_distinct _).1 _ _ _ _ hv
      · cases h

example : ∃ n, parse [123, 97, 58, 98, 44, 99, 61, 91, 93, 125] = .tree n := ⟨_, rfl⟩

/-- **C34** fails for control characters: U+0001 is written as `\01`, which the parser rejects. -/
theorem C34_control_characters :
    write 0 (.text [1]) = some [34, 92, 48, 49, 34] ∧ parse [34, 92, 48, 49, 34] = .bad :=
  ⟨by decide, rfl⟩

/-- **C34** fails for byte FF, which the parser takes for the end of the source. -/
theorem C34_byte_ff :
    write 0 (.text [255]) = some [34, 255, 34] ∧ parse [34, 255, 34] = .bad :=
  ⟨by decide, rfl⟩

/-- An unquoted word at the very end of the source (`abc`) makes the parser loop for ever; followed
by a line feed it parses. -/
theorem C34_word_at_end_hangs :
    parse [97, 98, 99] = .hang ∧ parse [97, 98, 99, 10] = .tree (.text [97, 98, 99]) :=
  ⟨rfl, rfl⟩

/-- A repeated name is rejected; like every rejection inside a value, that ends in the
dereference of a null pointer (`bad`). -/
theorem C34_repeated_name : parse [123, 97, 58, 98, 44, 97, 58, 98, 125] = .bad := rfl

/-- **C34**: parsing comes to an end or runs into the endless loop on an unquoted word at the end of
the source; the model never runs out of steps, so every other outcome is the code's own. -/
theorem C34_total (src : List Byte) : (match parse src with | .fuel => False | _ => True) := by
  unfold parse
  cases h1 : readToken false src with
  | bad => trivial
  | hang => trivial
  | fuel => exact absurd h1 (readToken_not_fuel _ _)
  | ok tok rest =>
    have hlen := (readToken_len false src tok rest h1).1
    dsimp only
    have ht := (total (2 * src.length + 3)).1 tok rest (by omega)
    cases h2 : readExpression (2 * src.length + 3) tok rest with
    | bad => trivial
    | hang => trivial
    | fuel => exact absurd h2 ht.1
    | ok root rest' =>
      dsimp only
      cases h3 : readToken false rest' with
      | bad => trivial
      | hang => trivial
      | fuel => exact absurd h3 (readToken_not_fuel _ _)
      | ok tok2 r => cases tok2 <;> trivial

end Verif.Pylon
