import Verif.Proc.Model

/-!
# What is asked of child processes
-/

namespace Verif.Proc

/-- What a program inherits of an entry. -/
def inherited : Option Entry → Option Entry
  | some e => if e.cloexec then none else some e
  | none => none

/-- What a redirected stream is to be. -/
def sameFile (e : Option Entry) : Option Entry := e.map (fun e => ⟨e.file, false⟩)

/-- The stream `e` of the program and the handle `h` of this process are what is asked: a pipe given by its descriptor, the
null device, or a new pipe whose other end is the handle and is not inherited by anyone. -/
def Stream (null : File) (mine theirs : Nat → File) (s s' : Sys) (mode : Mode) (given : Option Nat) (h : Option Nat)
    (e : Option Entry) : Prop :=
  match mode, given with
  | .redirect, some fd => h = none ∧ e = sameFile (s.table.get fd)
  | .redirect, none => h = none ∧ e = some ⟨null, false⟩
  | .opened, _ => ∃ k p, h = some k ∧ s.table.get k = none ∧ s'.table.get k = some ⟨mine p, true⟩ ∧
      e = some ⟨theirs p, false⟩ ∧ s.pipes ≤ p ∧ p < s'.pipes
  | .stdOut, _ => False

/-- This process may have opened the null device, for the first time. -/
def Grown (s s' : Sys) (j : Nat) : Prop :=
  s'.table.get j = s.table.get j ∨
  (s.table.get j = none ∧ s'.table.get j = some ⟨.nullIn, false⟩ ∧ s.nullIn = none ∧ s'.nullIn = some j) ∨
  (s.table.get j = none ∧ s'.table.get j = some ⟨.nullOut, false⟩ ∧ s.nullOut = none ∧ s'.nullOut = some j)

/-- A process in good order: its standard streams are open, the null device is where it was opened, and the pipes in its
table have been made. -/
structure Good (s : Sys) : Prop where
  std : ∀ i < 3, s.table.get i ≠ none
  nullIn : ∀ fd, s.nullIn = some fd → s.table.get fd = some ⟨.nullIn, false⟩ ∧ 3 ≤ fd
  nullOut : ∀ fd, s.nullOut = some fd → s.table.get fd = some ⟨.nullOut, false⟩ ∧ 3 ≤ fd
  made : ∀ i e, s.table.get i = some e → ∀ p, e.file = .readEnd p ∨ e.file = .writeEnd p → p < s.pipes

/-- What is given to `exec` is open, and only standard error is joined to standard output. -/
structure Valid (s : Sys) (i : Input) (o : Output) : Prop where
  input : i.stdIn ≠ .stdOut
  output : o.stdOut ≠ .stdOut
  stdIn : ∀ fd, i.stdIn = .redirect → i.stdInPipe = some fd → s.table.get fd ≠ none
  stdOut : ∀ fd, o.stdOut = .redirect → o.stdOutPipe = some fd → s.table.get fd ≠ none
  stdErr : ∀ fd, o.stdErr = .redirect → o.stdErrPipe = some fd → s.table.get fd ≠ none

/-- The descriptors of the handles. -/
def Handles.has (h : Handles) (j : Nat) : Prop :=
  h.writeToStdIn = some j ∨ h.readFromStdOut = some j ∨ h.readFromStdErr = some j

/-! ## Histories -/

/-- This process and the programs it has started, in order, with the descriptors that they (or processes they have
started themselves) hold now. -/
structure World where
  sys : Sys
  kids : List Table

/-- Somebody holds the file in a table. -/
def Holds (t : Table) (f : File) : Prop := ∃ i e, t.get i = some e ∧ e.file = f

/-- An end of a pipe. -/
def IsEnd (f : File) : Prop := ∃ p, f = .readEnd p ∨ f = .writeEnd p

/-- Who uses this process's own descriptor as a stream of a program. -/
def Given (fd : Nat) (i : Input) (o : Output) : Prop :=
  (i.stdIn = .redirect ∧ i.stdInPipe = some fd) ∨ (o.stdOut = .redirect ∧ o.stdOutPipe = some fd) ∨
  (o.stdErr = .redirect ∧ o.stdErrPipe = some fd)

/-- What happens: this process starts a program (with streams as `ok` allows), closes a descriptor (other than a standard
stream or the null device), or opens something that is not a pipe; or a program goes on and holds at most the ends it
held, up to none when it ends. -/
inductive Step (ok : Sys → Input → Output → Prop) : World → World → Prop where
  | exec {w : World} {i o s t h} (v : Valid w.sys i o) (k : ok w.sys i o) (e : exec w.sys i o = some (s, some t, h)) :
      Step ok w ⟨s, w.kids ++ [t]⟩
  | close {w : World} {fd t} (e : w.sys.table.close fd = some t) (h3 : 3 ≤ fd) (hi : w.sys.nullIn ≠ some fd)
      (ho : w.sys.nullOut ≠ some fd) : Step ok w ⟨{ w.sys with table := t }, w.kids⟩
  | open {w : World} {k c s fd} (e : w.sys.alloc ⟨.other k, c⟩ = some (s, fd)) : Step ok w ⟨s, w.kids⟩
  | kid {w : World} {n : Nat} {t t' : Table} (hn : w.kids[n]? = some t) (h : ∀ f, IsEnd f → Holds t' f → Holds t f) :
      Step ok w ⟨w.sys, w.kids.set n t'⟩

/-- Any number of steps. -/
inductive Steps (ok : Sys → Input → Output → Prop) : World → World → Prop where
  | refl (w) : Steps ok w w
  | tail {a b c} : Steps ok a b → Step ok b c → Steps ok a c

/-- Anything may be given to programs. -/
def Freely : Sys → Input → Output → Prop := fun _ _ _ => True

/-- The file is not given to a program as a stream. -/
def Keeping (f : File) (s : Sys) (i : Input) (o : Output) : Prop :=
  ∀ fd e, Given fd i o → s.table.get fd = some e → e.file ≠ f

/-- A world in good order: this process is, and the ends the programs hold are of pipes that have been made. -/
structure Fine (w : World) : Prop where
  sys : Good w.sys
  kids : ∀ t ∈ w.kids, ∀ p, Holds t (.readEnd p) ∨ Holds t (.writeEnd p) → p < w.sys.pipes

/-- Only this process holds the file, at the descriptor `k`, and programs do not inherit it. -/
structure OnlyAt (w : World) (f : File) (k : Nat) : Prop where
  here : ∀ j e, w.sys.table.get j = some e → e.file = f → j = k ∧ e.cloexec = true
  kids : ∀ t ∈ w.kids, ¬ Holds t f

/-- Only the program `n` holds the file. -/
structure OnlyKid (w : World) (f : File) (n : Nat) : Prop where
  here : ¬ Holds w.sys.table f
  kids : ∀ (m : Nat) t, w.kids[m]? = some t → Holds t f → m = n

/-- Nobody can write to a pipe any more: who reads it finds its end once it is empty. -/
def AtEnd (w : World) (p : Nat) : Prop := ¬ Holds w.sys.table (.writeEnd p) ∧ ∀ t ∈ w.kids, ¬ Holds t (.writeEnd p)

/-- Nobody can read from a pipe any more: who writes to it gets an error (or a signal). -/
def Broken (w : World) (p : Nat) : Prop := ¬ Holds w.sys.table (.readEnd p) ∧ ∀ t ∈ w.kids, ¬ Holds t (.readEnd p)

end Verif.Proc
