import Verif.DocText.Lemmas
/-!
# Links in descriptions — C94
-/
namespace Verif.DocText
open Verif Spec

/-- An example: a heading named `x`, a paragraph with text, a link to the page `p` with code in it, code `S` and code
`q`; and a heading that is code `q`. -/
def demo : Node := .other 0 [
  .heading [] [.link [35, 120] [.text [84], .code [113]]],
  .other 1 [.text [97], .link [112, 35, 121] [.text [98], .code [83]], .other 2 [.code [83]], .code [113]],
  .heading [] [.code [113]]]

/-- `S` leads to `/S`, and what begins with a colon fails an assertion. -/
def demoSpan (t : List Byte) : Option (List Byte) :=
  if t = [83] then some [47, 83] else if t.head? = some 58 then none else some []

/-- The page `p` is at `/docs/p`. -/
def demoIds : Ids := [([97], [47, 97]), ([112], [47, 112]), ([113], [47, 113])]

theorem demo_flat : Flat demo := by simp [demo, Flat, FlatAll, PlainAll, Plain]

/-- **What is shown.**  The pieces of text in a description are shown all and in order.  Those in a link stay in it, and
it leads where the link is meant to; code outside of links becomes a link of its own exactly if it leads somewhere, and
then it leads there; nothing else becomes a link.  A heading that is nothing but a link to a `#` place is not a link. -/
theorem C94_shown_partial {span : List Byte → Option (List Byte)} {ids : Ids} {n m : Node} (hf : Flat n)
    (h : visit span ids false n = some m) :
    shown none m = (meant none n).map (Run.resolved span (fixLink ids)) := (visit_shown span ids n false m hf h).1

/-- **The names of headings** are those given by such links, in order. -/
theorem C94_names {span : List Byte → Option (List Byte)} {ids : Ids} {n m : Node} (hf : Flat n)
    (h : visit span ids false n = some m) : names m = meantNames n := (visit_shown span ids n false m hf h).2

/-- The text, the code and the links of the example. -/
example : (visit demoSpan demoIds false demo).map (shown none) = some [
      ⟨[84], false, none⟩, ⟨[113], true, none⟩, ⟨[97], false, none⟩, ⟨[98], false, some [47, 112, 35, 121]⟩,
      ⟨[83], true, some [47, 112, 35, 121]⟩, ⟨[83], true, some [47, 83]⟩, ⟨[113], true, none⟩, ⟨[113], true, none⟩] ∧
    (visit demoSpan demoIds false demo).map names = some [[120], []] := by decide +kernel

/-- **When it goes well**: exactly if looking for what some code means does not fail, and if no code that leads somewhere
stands directly in a heading that is nothing but a link to a `#` place. -/
theorem C94_fails (span : List Byte → Option (List Byte)) (ids : Ids) {n : Node} (hf : Flat n) :
    visit span ids false n = none ↔
      (∃ r ∈ meant none n, r.code = true ∧ r.link = none ∧ span r.text = none) ∨
      ∃ t ∈ inNames n, ∃ c d, span t = some (c :: d) := by
  have h := visit_ok span ids n false hf
  have h' : visit span ids false n = none ↔ ¬ ∃ m, visit span ids false n = some m := by
    cases visit span ids false n <;> simp
  rw [h', h]
  constructor
  · intro hn
    refine Classical.byContradiction fun hc => hn ⟨?_, ?_, by simp⟩
    · intro r hr h1 h2 h3
      exact hc (.inl ⟨r, hr, h1, h2, h3⟩)
    · intro t ht d hd
      cases d with
      | nil => rfl
      | cons c d => exact absurd (.inr ⟨t, ht, c, d, hd⟩) hc
  · rintro (⟨r, hr, h1, h2, h3⟩ | ⟨t, ht, c, d, hd⟩) ⟨k1, k2, -⟩
    · exact k1 r hr h1 h2 h3
    · exact absurd (k2 t ht _ hd) (by simp)

/-- **A heading with a name and code in it.**  A heading such as ``# [`S`](#s)`` reads deleted memory as soon as there is
a page for `S`, whatever else there is in the description. -/
theorem C94_heading_code (span : List Byte → Option (List Byte)) (ids : Ids) (id a t : List Byte) (pre post : List Node)
    {c : Byte} {d : List Byte} (h : span t = some (c :: d)) :
    visit span ids false (.heading id [.link (35 :: a) (pre ++ .code t :: post)]) = none := by
  rw [visit_named, Option.map_eq_none_iff]
  induction pre with
  | nil => simp [visitAll, visit, h]
  | cons n pre ih =>
    rw [List.cons_append, visitAll]
    cases visit span ids true n with
    | none => rfl
    | some m => simp [ih]

example : visit demoSpan demoIds false (.heading [] [.link [35, 115] [.code [83]]]) = none ∧
    (visit demoSpan demoIds false (.heading [] [.code [83]])).isSome = true := by decide +kernel

/-! ## Links to pages -/

/-- **A link by ID**, with a place in the page or not, leads to the first page of this ID and to this place. -/
theorem C94_page_link {ids : Ids} (hs : ids.Pairwise fun a b => ¬ b.1 < a.1) (hl : ∀ p ∈ ids, p.1.length < 2 ^ 31)
    {id rest : List Byte} (hi : IsId id) (hil : id.length < 2 ^ 31) (hr : rest = [] ∨ rest.head? = some 35)
    (hc : 58 ∉ rest) :
    (∀ dest, PageById ids id dest → fixLink ids (id ++ rest) = dest ++ rest) ∧
    ((∀ p ∈ ids, p.1 ≠ id) → fixLink ids (id ++ rest) = id ++ rest) := by
  obtain ⟨i1, i2, i3, i4⟩ := hi
  have h47 : Str.startsWith (id ++ rest) [47] = false := by
    cases id with
    | nil => exact absurd rfl i1
    | cons c cs =>
      simp only [List.head?_cons, ne_eq, Option.some.injEq] at i2
      simp [Str.startsWith, i2]
  have h58 : Str.findByte (· == 58) 0 (id ++ rest) < 0 := by
    rw [findByte_none, List.mem_append]
    rintro (h | h)
    · exact i4 h
    · exact hc h
  have hpos : (if Str.findByte (· == 35) 0 (id ++ rest) < 0 then (id ++ rest).length
      else (Str.findByte (· == 35) 0 (id ++ rest)).toNat) = id.length := by
    rcases hr with rfl | hr
    · rw [List.append_nil, if_pos (findByte_none.2 i3)]
    · cases rest with
      | nil => cases hr
      | cons c cs =>
        cases hr
        rw [findByte_at i3, if_neg (by omega)]
        omega
  have key : fixLink ids (id ++ rest) = match ids.dropWhile fun p => DocLink.less p.1 id with
      | (i, d) :: _ => if i = id then d ++ rest else id ++ rest
      | [] => id ++ rest := by
    unfold fixLink
    rw [h47]
    simp only [Bool.not_false, Bool.true_and, decide_eq_true_eq]
    rw [if_pos h58, hpos, List.take_left, if_pos i1, List.drop_left]
    rfl
  rw [key]
  rcases DocLink.first_ge (fun p : List Byte × List Byte => p.1) hil ids hl hs with ⟨a, c, b, e1, e2, e3, e4⟩ | ⟨e1, e2⟩
  · rw [e4]
    dsimp only
    rw [if_pos e2]
    refine ⟨?_, fun hn => absurd e2 (hn c (by rw [e1]; simp))⟩
    rintro dest ⟨a', b', k1, k2⟩
    congr 1
    rw [e1] at k1
    rcases List.append_eq_append_iff.1 k1 with ⟨x, f1, f2⟩ | ⟨x, f1, f2⟩
    · cases x with
      | nil => simp at f2; rw [f2.1]
      | cons y x =>
        simp at f2
        exact absurd e2 (k2 c (by rw [f1]; simp [f2.1]))
    · cases x with
      | nil => simp at f2; rw [← f2.1]
      | cons y x =>
        simp at f2
        exact absurd rfl (e3 (id, dest) (by rw [f1]; simp [f2.1]))
  · refine ⟨?_, fun _ => ?_⟩
    · rintro dest ⟨a, b, k1, -⟩
      exact absurd rfl (e1 (id, dest) (by rw [k1]; simp))
    · split
      · rename_i i d b hd
        rw [if_neg (e2 (i, d) b hd)]
      · rfl

example : IsId [112] ∧ demoIds.Pairwise (fun a b => ¬ b.1 < a.1) ∧ PageById demoIds [112] [47, 112] ∧
    fixLink demoIds [112, 35, 121] = [47, 112, 35, 121] ∧ fixLink demoIds [120, 35, 121] = [120, 35, 121] :=
  ⟨⟨by decide, by decide, by decide, by decide⟩, by decide, ⟨[([97], [47, 97])], [([113], [47, 113])], rfl, by decide⟩,
    by decide, by decide⟩

/-- **Other links** stay as they are: those beginning with a slash or a `#`, those with a colon, and the empty one. -/
theorem C94_other_link (ids : Ids) {text : List Byte} (h : text.head? = some 47 ∨ 58 ∈ text ∨ text.head? = some 35 ∨
    text = []) : fixLink ids text = text := by
  unfold fixLink
  rcases h with h | h | h | rfl
  · rw [if_neg]
    cases text with
    | nil => cases h
    | cons c cs =>
      cases h
      simp [Str.startsWith]
  · rw [if_neg]
    simp only [Bool.and_eq_true, decide_eq_true_eq, not_and]
    intro _ hn
    exact findByte_none.1 hn h
  · cases text with
    | nil => cases h
    | cons c cs =>
      cases h
      have : Str.findByte (· == 35) 0 ((35 : Byte) :: cs) = (0 : Nat) := findByte_at (a := []) (b := cs) (by simp)
      rw [this]
      simp
  · simp [Str.startsWith, Str.findByte, Str.findLoop]

/-- **A colon in the place**: a link to the place `a::b` of a page by its ID is not made into a link to the page,
whatever the pages. -/
theorem C94_colon (ids : Ids) (id a b : List Byte) : fixLink ids (id ++ 35 :: (a ++ 58 :: b)) = id ++ 35 :: (a ++ 58 :: b) :=
  C94_other_link ids (.inr (.inl (by simp)))

example : fixLink demoIds [112, 35, 121, 58, 58, 122] = [112, 35, 121, 58, 58, 122] ∧
    fixLink demoIds [112, 35, 121] = [47, 112, 35, 121] := by decide

end Verif.DocText
