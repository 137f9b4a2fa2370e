import Verif.Gen.Lemmas
/-!
# Generated lines in source files — C96
-/
namespace Verif.Gen
open Verif Spec

/-- An example: a line `s{`, an old line with `x` in it, a class that ends in its own line, a line with `#i`, and a class
with something before its brace. -/
def demo : List Part :=
  [.text [115, 123, 10], .old [32] [35, 120, 47, 47, 64, 64, 112, 108, 121, 32, 10], .close [32, 32] [59, 10] [97],
    .other [] [35, 105, 10], .closeAfter [9] [105, 32, 59] [32] [10] [98]]

theorem demo_ok : ∀ p ∈ demo, p.Ok := by
  intro p hp
  simp only [demo, List.mem_cons, List.not_mem_nil, or_false] at hp
  rcases hp with rfl | rfl | rfl | rfl | rfl
  · exact ⟨[115, 123], rfl⟩
  · exact ⟨by simp [Blank], ⟨[35, 120, 47, 47, 64, 64, 112, 108, 121, 32], rfl⟩, ⟨[35, 120], [32, 10], rfl, by simp⟩⟩
  · exact ⟨by simp [Blank], ⟨[59], rfl⟩⟩
  · refine ⟨by simp [Blank], ⟨[35, 105], rfl⟩, fun h => ?_⟩
    have := (marked_iff _).2 h
    exact absurd this (by decide)
  · exact ⟨by simp [Blank], by simp [Blank], ⟨[], rfl⟩, by decide, ⟨105, rfl, by simp [Solid]⟩, ⟨59, rfl, by simp [Solid]⟩⟩

theorem demo_end : ¬ EndsOld demo [] := by
  rintro ⟨_, u, ws, d, h⟩
  have := congrArg List.getLast? h
  simp [demo] at this

/-- **What the generator makes of a file.**  The lines it generated before are taken out, each class with a switch gets
one at its end, in a line of its own before the closing brace, and everything else stays as it is. -/
theorem C96_generate_partial {l : List Part} {tail : List Byte} (hok : ∀ p ∈ l, p.Ok) (he : ¬ EndsOld l tail) :
    generate (bytes l tail) (events 0 l) = some (bytes (l.flatMap Part.renew) tail) := by
  have := loop_eq tail l [] 0 hok (.inl rfl) (Nat.le_refl _) he
  simpa [generate] using this

example : generate (bytes demo []) (events 0 demo) =
    some ([115, 123, 10] ++ directive [97] ++ [32, 32, 125, 59, 10] ++ [35, 105, 10] ++ [9, 105, 32, 59, 10] ++
      directive [98] ++ [9, 32, 125, 10]) := by decide

/-- **A second time.**  What has been made is again such a file, and the generator leaves it exactly as it is. -/
theorem C96_again {l : List Part} {tail : List Byte} (hok : ∀ p ∈ l, p.Ok) :
    (∀ p ∈ l.flatMap Part.renew, p.Ok) ∧ generate (bytes (l.flatMap Part.renew) tail) (events 0 (l.flatMap Part.renew)) =
      some (bytes (l.flatMap Part.renew) tail) := by
  have h1 : ∀ p ∈ l.flatMap Part.renew, p.Ok := by
    intro q hq
    obtain ⟨p, hp, hq⟩ := List.mem_flatMap.1 hq
    exact renew_ok (hok p hp) q hq
  refine ⟨h1, ?_⟩
  have := C96_generate_partial (tail := tail) h1 (by
    rintro ⟨_, u, ws, d, h⟩
    exact renews_end l ws d (by rw [h]; simp))
  rwa [renews_twice] at this

/-- **Files that fail.**  An assertion fails exactly if a generated line is the end of the file. -/
theorem C96_fails {l : List Part} {tail : List Byte} (hok : ∀ p ∈ l, p.Ok) :
    generate (bytes l tail) (events 0 l) = none ↔ EndsOld l tail := by
  constructor
  · intro h
    by_cases he : EndsOld l tail
    · exact he
    · rw [C96_generate_partial hok he] at h
      cases h
  · exact fun h => ends_none h hok

example : EndsOld [.text [10], .old [] (line [97])] [] := ⟨rfl, [.text [10]], [], line [97], rfl⟩

/-- Without a tail to keep: such a file is never renewed. -/
theorem C96_end_of_file (name : List Byte) :
    generate (bytes [.old [] (line name)] []) (events 0 [.old [] (line name)]) = none :=
  (C96_fails (by
    intro p hp
    rw [List.mem_singleton.1 hp]
    exact ⟨by simp [Blank], line_ended _, line_generated _⟩)).2 ⟨rfl, [], [], line name, rfl⟩

/-- **One line for each class.**  In the file made there is exactly one generated line for each class with a switch, with
its name, in the order of the classes; no other is left. -/
theorem C96_one_each (l : List Part) :
    ((l.flatMap Part.renew).filterMap fun p => match p with | .old _ d => some d | _ => none) =
      (l.filterMap fun p => match p with
        | .close _ _ n => some (line n)
        | .closeAfter _ _ _ _ n => some (line n)
        | _ => none) := by
  induction l with
  | nil => rfl
  | cons p l ih =>
    rw [List.flatMap_cons, List.filterMap_append, ih]
    cases p <;> simp [Part.renew]

/-- **Which lines count as generated.**  A directive is taken out exactly if it ends with the mark, perhaps with white
space after it; otherwise it is left alone. -/
theorem C96_mark (src : List Byte) (start len : Nat) :
    onEvent src (.incl start len) ≠ [] ↔ Generated ((src.drop start).take len) := by
  rw [← marked_iff]
  unfold onEvent
  cases h : marked ((src.drop start).take len) <;> simp [h]

example : Generated (line [97]) := line_generated _

end Verif.Gen
