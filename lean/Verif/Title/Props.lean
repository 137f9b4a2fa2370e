import Verif.Title.Lemmas
/-!
# Titles of members — C90
-/
namespace Verif.Title
open Verif

/-- C90: a title is read without an error exactly when it is written as titles are, text and `[name text]` in turns, and
the spans are then those that are meant. -/
theorem C90_grammar (src : List Byte) (spans : List Span) : parseTitle src = (spans, []) ↔ IsTitle src spans :=
  ⟨fun h => title_sound _ src spans (Nat.le_refl _) h, fun h => title_complete h⟩

/-- Beside it: `a[em b]` -/
example : parseTitle [97, 91, 101, 109, 32, 98, 93] = ([⟨.normal, [97]⟩, ⟨.em, [98]⟩], []) ∧
    IsTitle [97, 91, 101, 109, 32, 98, 93] [⟨.normal, [97]⟩, ⟨.em, [98]⟩] :=
  ⟨by decide, (C90_grammar _ _).1 (by decide)⟩

/-- C90: any spans can be written as a title that is read as them, if none is empty and no two normal ones follow each
other. -/
theorem C90_roundtrip (spans : List Span) (h : Proper spans) : parseTitle (spans.flatMap written) = (spans, []) :=
  title_complete (written_title _ spans (Nat.le_refl _) h)

/-- Beside it: a bracket and a backslash in the text. -/
example : Proper [⟨.normal, [91]⟩, ⟨.qid, [93, 92]⟩, ⟨.strong, [97]⟩] ∧
    ([⟨.normal, [91]⟩, ⟨.qid, [93, 92]⟩, ⟨.strong, [97]⟩] : List Span).flatMap written =
      [92, 91, 91, 113, 105, 100, 32, 92, 93, 92, 92, 93, 91, 115, 116, 114, 111, 110, 103, 32, 97, 93] := by
  simp [Proper, written, protect, Kind.name]

/-- C90: whatever the title, no text is shown that is not in it, nor in another order, and no span is empty. -/
theorem C90_text (src : List Byte) : ((parseTitle src).1.flatMap Span.text).Sublist src ∧
    ∀ s ∈ (parseTitle src).1, s.text ≠ [] :=
  title_text _ src [] .normal (Nat.le_refl _)

/-- Beside it: `a]b[x c`, with three errors. -/
example : parseTitle [97, 93, 98, 91, 120, 32, 99] =
    ([⟨.normal, [97, 98]⟩, ⟨.strong, [99]⟩], [.unexpectedClose, .unrecognizedSpanType [120], .unclosedSpan]) := by decide

/-- C90: in the HTML of a title, each span shows its text inside of its own markup and nothing else; a name is a link if
there is a place to link to.  For text in which no code point below 128 is spelled with more than one byte. -/
theorem C90_html_partial (link : List Byte → List Byte) : ∀ (spans : List Span),
    (∀ s ∈ spans, Esc.NoOverlongAscii s.text ∧ Esc.NoOverlongAscii (link s.text)) →
    ∃ out, writeTitle link spans = some out ∧ Reads out (spans.flatMap (Span.items link))
  | [], _ => ⟨[], rfl, .nil⟩
  | s :: rest, h => by
    obtain ⟨a, ha, ra⟩ := writeSpan_reads link s (h s (List.mem_cons_self ..)).1 (h s (List.mem_cons_self ..)).2
    obtain ⟨b, hb, rb⟩ := C90_html_partial link rest fun x hx => h x (List.mem_cons_of_mem _ hx)
    refine ⟨a ++ b, ?_, reads_append ra rb⟩
    unfold writeTitle
    rw [ha, hb]

/-- Beside it: `<` in emphasis and a name that has a link. -/
example : writeTitle (fun _ => [47, 34]) [⟨.em, [60]⟩, ⟨.qid, [97]⟩] = some
    ([60, 101, 109, 62] ++ [38, 108, 116, 59] ++ [60, 47, 101, 109, 62] ++
     [60, 97, 32, 104, 114, 101, 102, 61, 34, 47, 38, 113, 117, 111, 116, 59, 34, 62, 97, 60, 47, 97, 62]) := by decide

/-- C90: a backslash at the very end of a title is left out, and nothing is reported. -/
theorem C90_backslash_silent {src : List Byte} {spans : List Span} (h : parseTitle src = (spans, []))
    (hb : ∃ t, Body src t) : parseTitle (src ++ [92]) = (spans, []) := by
  obtain ⟨t, ht⟩ := hb
  have h1 := title_complete (.last ht)
  have h2 := title_complete (.lastBackslash ht)
  have h3 : title .normal [] src = (spans, []) := h
  rw [h1] at h3
  exact h2.trans h3

/-- Beside it -/
example : parseTitle [97, 92] = ([⟨.normal, [97]⟩], []) ∧ ∃ t, Body [97] t :=
  ⟨by decide, _, .plain 97 (by decide) (by decide) (by decide) .nil⟩

/-- C90: a name of a span that is not known, in small letters, makes the text strong, and it is reported. -/
theorem C90_unknown_name {name s t : List Byte} (hn : ∀ k : Kind, name ≠ k.name)
    (hl : ∀ c ∈ name, 97 ≤ c.toNat ∧ c.toNat ≤ 122) (hb : Body s t) :
    parseTitle ([91] ++ name ++ [32] ++ s ++ [93]) = (one .strong t, [.unrecognizedSpanType name]) := by
  have hid : afterName (name ++ 32 :: (s ++ [93])) = 32 :: (s ++ [93]) := identLoop_letters name true _ hl
  have hnm : spanName (name ++ 32 :: (s ++ [93])) = name := by
    have := name_append (name ++ 32 :: (s ++ [93]))
    rw [hid] at this
    exact List.append_cancel_right this
  have hk : spanKind .normal name = (.strong, [.unrecognizedSpanType name]) := by
    have h1 : name ≠ [] := hn .normal
    have h2 : name ≠ [115, 116, 114, 111, 110, 103] := hn .strong
    have h3 : name ≠ [101, 109] := hn .em
    have h4 : name ≠ [113, 105, 100] := hn .qid
    unfold spanKind
    rw [if_neg h1, if_neg h2, if_neg h3, if_neg h4]
  have ha : afterSpace (name ++ 32 :: (s ++ [93])) = (s ++ [93], []) := by
    unfold afterSpace
    rw [hid]
    exact if_pos rfl
  have e : [91] ++ name ++ [32] ++ s ++ [93] = 91 :: (name ++ 32 :: (s ++ [93])) := by simp
  show title .normal [] _ = _
  rw [e, title_open, hnm, hk, ha]
  dsimp only
  rw [title_body hb, title_close, if_neg (by decide), title_nil, flush_one, flush_one]
  simp [one]

/-- Beside it: `[b x]` -/
example : parseTitle [91, 98, 32, 120, 93] = ([⟨.strong, [120]⟩], [.unrecognizedSpanType [98]]) ∧
    (∀ k : Kind, [98] ≠ k.name) ∧ Body [120] [120] :=
  ⟨by decide, fun k => by cases k <;> decide, .plain 120 (by decide) (by decide) (by decide) .nil⟩

end Verif.Title
