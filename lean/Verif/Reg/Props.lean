import Verif.Reg.Lemmas
/-!
# C97: commands in module definition files
-/
namespace Verif.Reg
open Verif Spec

/-- ` [ply module="a"]`, as text of a comment. -/
def sample : List Byte := [32, 91, 112, 108, 121, 32, 109, 111, 100, 117, 108, 101, 61, 34, 97, 34, 93]

theorem sample_written : Written (.module [97]) sample :=
  .module (name := [97]) (a := [32]) (b := [32]) (q := [61, 34, 97, 34]) (c := [])
    (by simp [Plain]) (by simp [Blank]) (by simp [Blank]) (by simp) (by simp [Blank])
    ⟨[], [], [], by simp [Blank], by simp [Blank], by simp [Blank], rfl⟩

/-- **Commands are understood.**  A command as in the documentation, with white space anywhere, at file scope, is taken
for that command, with exactly the names in quotes. -/
theorem C97_written {cmd : Cmd} {text : List Byte} (h : Written cmd text) :
    meaning true text = .ply (.ok cmd) ∧
      ∀ st : State, st.cmd = none → step st (.comment true true text) = { st with cmd := some cmd } := by
  refine ⟨written_meaning h, fun st hs => ?_⟩
  unfold step
  simp [written_meaning h, hs]

example : meaning true sample = .ply (.ok (.module [97])) := (C97_written sample_written).1

/-- **Nothing else is taken for a command** unless it is at file scope and gives names that are not empty. -/
theorem C97_only {scope : Bool} {text : List Byte} {cmd : Cmd} (h : meaning scope text = .ply (.ok cmd)) :
    scope = true ∧ Named cmd := meaning_only h

example : meaning true sample = .ply (.ok (.module [97])) := written_meaning sample_written

/-- **Each command goes to the function after it.**  If in a file each command is followed by a function, with nothing
but comments between, exactly these functions are found, each with its command, in order, and there are no errors.
Partial: the claim for all files is refuted by `C97_lost_at_end`. -/
theorem C97_registered_partial (ps : List Piece) (h : ∀ p ∈ ps, p.Ok) :
    extract (ps.flatMap Piece.events) = ⟨none, ps.flatMap Piece.found, []⟩ := by
  have := pieces_run ps [] [] h
  rwa [List.nil_append] at this

example : extract [.comment true true [32, 120], .decl none, .comment true true sample, .comment true true [32, 120],
    .decl (some [102]), .decl (some [103])] = ⟨none, [(.module [97], [102])], []⟩ :=
  have hr : Remark [32, 120] := ⟨[32], 120, [], by simp [Blank], rfl, by simp [Blank], by simp, by simp⟩
  C97_registered_partial [.comment true [32, 120], .decl none, .annotated (.module [97]) sample [(true, [32, 120])] [102],
    .decl (some [103])] (by
      intro p hp
      simp only [List.mem_cons, List.not_mem_nil, or_false] at hp
      rcases hp with rfl | rfl | rfl | rfl
      · exact hr
      · trivial
      · refine ⟨sample_written, fun o ho => ?_⟩
        rw [List.mem_singleton.1 ho]
        exact hr
      · trivial)

/-- **No command gets lost on the way.**  In any file, the commands that are understood are as many as the functions found,
the reports of a command that was dropped, and the one that is left over at the end of the file, if any. -/
theorem C97_balance (es : List Event) :
    accepted es = (extract es).found.length +
      ((extract es).errs.filter fun e => e == .alreadyInside || e == .couldNotApply).length +
      (extract es).cmd.toList.length := by
  have := count_run es {}
  have h0 : ({} : State).cmd.toList.length = 0 := rfl
  have h1 : ({} : State).found.length = 0 := rfl
  have h2 : (({} : State).errs.filter isDrop).length = 0 := rfl
  rw [h0, h1, h2] at this
  simp only [Nat.add_zero] at this
  exact this.symm

example : accepted [.comment true true sample, .comment true true sample, .decl none] = 2 := by
  simp [accepted, written_meaning sample_written]

/-- **A second command before the function** replaces the first, and a declaration that is no function uses one up; both
are reported. -/
theorem C97_reported {cmd cmd' : Cmd} {text text' : List Byte} (h : Written cmd text) (h' : Written cmd' text')
    (f : List Byte) :
    extract [.comment true true text, .comment true true text', .decl (some f)] =
        ⟨none, [(cmd', f)], [.alreadyInside]⟩ ∧
      extract [.comment true true text, .decl none, .decl (some f)] = ⟨none, [], [.couldNotApply]⟩ := by
  simp [extract, step, written_meaning h, written_meaning h']

example : extract [.comment true true sample, .comment true true sample, .decl (some [102])] =
    ⟨none, [(.module [97], [102])], [.alreadyInside]⟩ := (C97_reported sample_written sample_written [102]).1

/-- **False of the code:** a command with no declaration after it is dropped without a word: whatever the file, if it ends
with a command nothing is found for it and nothing is reported. -/
theorem C97_lost_at_end {cmd : Cmd} {text : List Byte} (h : Written cmd text) (ps : List Piece) (hp : ∀ p ∈ ps, p.Ok) :
    (extract (ps.flatMap Piece.events ++ [.comment true true text])).found = ps.flatMap Piece.found ∧
      (extract (ps.flatMap Piece.events ++ [.comment true true text])).errs = [] := by
  have e : extract (ps.flatMap Piece.events ++ [.comment true true text]) =
      step (extract (ps.flatMap Piece.events)) (.comment true true text) := by
    unfold extract
    rw [List.foldl_append]
    rfl
  rw [e, C97_registered_partial ps hp, (C97_written h).2 _ rfl]
  exact ⟨rfl, rfl⟩

example : (extract ([] ++ [.comment true true sample])).errs = [] :=
  (C97_lost_at_end sample_written [] (by intro p hp; cases hp)).2

end Verif.Reg
