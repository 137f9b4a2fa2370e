/-!
# Child processes

Paths are relative to repos/plywood/src; rt/ = runtime/ply-runtime/.

The kernel's part is modelled as POSIX describes it: every process has a table of descriptors, `dup`, `pipe` and `open`
take the lowest free one, `fork` copies the table and `exec` closes the descriptors marked close-on-exec.
-/

namespace Verif.Proc

/-- What a descriptor leads to: /dev/null opened for reading or writing (rt/process/impl/Subprocess_POSIX.cpp:68,85), an
end of a pipe (pipes are numbered in the order they are made), or anything else. -/
inductive File where
  | nullIn
  | nullOut
  | readEnd (pipe : Nat)
  | writeEnd (pipe : Nat)
  | other (k : Nat)
deriving DecidableEq, Repr

/-- An open descriptor with its flag `FD_CLOEXEC` (rt/process/impl/Subprocess_POSIX.cpp:123,148,176). -/
structure Entry where
  file : File
  cloexec : Bool
deriving DecidableEq, Repr

/-- The table of descriptors of a process; what is behind its end is not open.  Part of the kernel, see
rt/process/impl/Subprocess_POSIX.cpp:12-14 for the headers used. -/
abbrev Table := List (Option Entry)

/-- What is open at a descriptor (kernel). -/
def Table.get (t : Table) (i : Nat) : Option Entry := t.getD i none

/-- The table with another entry (kernel). -/
def Table.put (t : Table) (i : Nat) (e : Option Entry) : Table :=
  (t ++ List.replicate (i + 1 - t.length) none).set i e

/-- The lowest free descriptor (kernel: what `dup`, `pipe` and `open` return). -/
def Table.lowest (t : Table) : Nat := t.findIdx (fun e => e.isNone)

/-- This process.  `limit` is the number of descriptors the kernel allows, `pipes` the number of pipes made so far,
`nullIn` and `nullOut` the static variables of `getNullInFD_POSIX` and `getNullOutFD_POSIX`,
rt/process/impl/Subprocess_POSIX.cpp:61,78 (`none` for -1). -/
structure Sys where
  table : Table
  limit : Nat
  pipes : Nat
  nullIn : Option Nat
  nullOut : Option Nat
deriving DecidableEq, Repr

/-- A new descriptor for a file (kernel, used by the next three). -/
def Sys.alloc (s : Sys) (e : Entry) : Option (Sys × Nat) :=
  let n := s.table.lowest
  if n < s.limit then some ({ s with table := s.table.put n (some e) }, n) else none

/-- `dup` (kernel), with the assertion that it succeeds, rt/process/impl/Subprocess_POSIX.cpp:72-73,108-109. -/
def Sys.dup (s : Sys) (fd : Nat) : Option (Sys × Nat) :=
  match s.table.get fd with
  | none => none
  | some e => s.alloc ⟨e.file, false⟩

/-- `pipe` (kernel), with the assertion that it succeeds, rt/process/impl/Subprocess_POSIX.cpp:119-120; first the reading
end, then the writing end. -/
def Sys.pipe (s : Sys) : Option (Sys × Nat × Nat) :=
  match s.alloc ⟨.readEnd s.pipes, false⟩ with
  | none => none
  | some (s1, r) =>
    match s1.alloc ⟨.writeEnd s.pipes, false⟩ with
    | none => none
    | some (s2, w) => some ({ s2 with pipes := s.pipes + 1 }, r, w)

/-- `fcntl(fd, F_SETFD, FD_CLOEXEC)` (kernel), with the assertion, rt/process/impl/Subprocess_POSIX.cpp:123-124. -/
def Sys.setCloexec (s : Sys) (fd : Nat) : Option Sys :=
  match s.table.get fd with
  | none => none
  | some e => some { s with table := s.table.put fd (some { e with cloexec := true }) }

/-- `close` (kernel), with the assertion that it succeeds, rt/process/impl/Subprocess_POSIX.cpp:240-241,
rt/io/impl/Pipe_FD.cpp:16-18. -/
def Table.close (t : Table) (fd : Nat) : Option Table :=
  match t.get fd with
  | none => none
  | some _ => some (t.put fd none)

/-- `dup2` (kernel), with the assertion, rt/process/impl/Subprocess_POSIX.cpp:208-209: a descriptor duplicated to itself
stays as it is. -/
def Table.dup2 (t : Table) (old new : Nat) : Option Table :=
  match t.get old with
  | none => none
  | some e => if old = new then some t else some (t.put new (some ⟨e.file, false⟩))

/-- `exec` closes what is marked (kernel). -/
def Table.execed (t : Table) : Table := t.map (fun e => match e with
  | some e => if e.cloexec then none else some e
  | none => none)

/-- `getNullInFD_POSIX`, rt/process/impl/Subprocess_POSIX.cpp:60-75; the mutex is left out. -/
def Sys.getNullIn (s : Sys) : Option (Sys × Nat) :=
  match s.nullIn with
  | some fd => s.dup fd
  | none =>
    match s.alloc ⟨.nullIn, false⟩ with
    | none => none
    | some (s, fd) => { s with nullIn := some fd }.dup fd

/-- `getNullOutFD_POSIX`, rt/process/impl/Subprocess_POSIX.cpp:77-92; the mutex is left out. -/
def Sys.getNullOut (s : Sys) : Option (Sys × Nat) :=
  match s.nullOut with
  | some fd => s.dup fd
  | none =>
    match s.alloc ⟨.nullOut, false⟩ with
    | none => none
    | some (s, fd) => { s with nullOut := some fd }.dup fd

/-- `Subprocess::Pipe`, rt/process/Subprocess.h:15-20. -/
inductive Mode where
  | opened
  | redirect
  | stdOut
deriving DecidableEq, Repr

/-- `Subprocess::Input`, rt/process/Subprocess.h:56-58; the pipe is given by its descriptor, `none` for `nullptr`. -/
structure Input where
  stdIn : Mode
  stdInPipe : Option Nat
deriving DecidableEq, Repr

/-- `Subprocess::Output`, rt/process/Subprocess.h:22-26. -/
structure Output where
  stdOut : Mode
  stdErr : Mode
  stdOutPipe : Option Nat
  stdErrPipe : Option Nat
deriving DecidableEq, Repr

/-- `Input::ignore`, `inherit`, `open`, rt/process/Subprocess.h:60-68. -/
def Input.ignore : Input := ⟨.redirect, none⟩
@[inherit_doc Input.ignore] def Input.inherit : Input := ⟨.redirect, some 0⟩
@[inherit_doc Input.ignore] def Input.open : Input := ⟨.opened, none⟩

/-- `Output::ignore`, `inherit`, `openSeparate`, `openMerged`, `openStdOutOnly`, rt/process/Subprocess.h:28-53. -/
def Output.ignore : Output := ⟨.redirect, .redirect, none, none⟩
@[inherit_doc Output.ignore] def Output.inherit : Output := ⟨.redirect, .redirect, some 1, some 2⟩
@[inherit_doc Output.ignore] def Output.openSeparate : Output := ⟨.opened, .opened, none, none⟩
@[inherit_doc Output.ignore] def Output.openMerged : Output := ⟨.opened, .stdOut, none, none⟩
@[inherit_doc Output.ignore] def Output.openStdOutOnly : Output := ⟨.opened, .redirect, none, none⟩

/-- The six descriptors, rt/process/impl/Subprocess_POSIX.cpp:98-100: `in1`, `out0` and `err0` are kept by this process
(`none` for -1), the others are for the child. -/
structure Fds where
  in0 : Nat
  in1 : Option Nat
  out0 : Option Nat
  out1 : Nat
  err0 : Option Nat
  err1 : Nat
deriving DecidableEq, Repr

/-- Standard input, rt/process/impl/Subprocess_POSIX.cpp:105-125. -/
def prepareIn (s : Sys) (i : Input) : Option (Sys × Nat × Option Nat) :=
  match i.stdIn with
  | .redirect =>
    match i.stdInPipe with
    | some fd => (s.dup fd).map (fun (s, fd) => (s, fd, none))
    | none => s.getNullIn.map (fun (s, fd) => (s, fd, none))
  | .opened =>
    match s.pipe with
    | none => none
    | some (s, r, w) => (s.setCloexec w).map (fun s => (s, r, some w))
  | .stdOut => none

/-- Standard output, rt/process/impl/Subprocess_POSIX.cpp:130-150; first what is kept, then what is for the child. -/
def prepareOut (s : Sys) (o : Output) : Option (Sys × Option Nat × Nat) :=
  match o.stdOut with
  | .redirect =>
    match o.stdOutPipe with
    | some fd => (s.dup fd).map (fun (s, fd) => (s, none, fd))
    | none => s.getNullOut.map (fun (s, fd) => (s, none, fd))
  | .opened =>
    match s.pipe with
    | none => none
    | some (s, r, w) => (s.setCloexec r).map (fun s => (s, some r, w))
  | .stdOut => none

/-- Standard error, rt/process/impl/Subprocess_POSIX.cpp:155-178. -/
def prepareErr (s : Sys) (o : Output) (out1 : Nat) : Option (Sys × Option Nat × Nat) :=
  match o.stdErr with
  | .redirect =>
    match o.stdErrPipe with
    | some fd => (s.dup fd).map (fun (s, fd) => (s, none, fd))
    | none => s.getNullOut.map (fun (s, fd) => (s, none, fd))
  | .stdOut => some (s, none, out1)
  | .opened =>
    match s.pipe with
    | none => none
    | some (s, r, w) => (s.setCloexec r).map (fun s => (s, some r, w))

/-- What is done before the fork, rt/process/impl/Subprocess_POSIX.cpp:98-178. -/
def prepare (s : Sys) (i : Input) (o : Output) : Option (Sys × Fds) :=
  match prepareIn s i with
  | none => none
  | some (s, in0, in1) =>
    match prepareOut s o with
    | none => none
    | some (s, out0, out1) =>
      match prepareErr s o out1 with
      | none => none
      | some (s, err0, err1) => some (s, ⟨in0, in1, out0, out1, err0, err1⟩)

/-- The child up to the call of `execvp` and the table the program starts with,
rt/process/impl/Subprocess_POSIX.cpp:205-225,231.  `none` if an assertion fails in it. -/
def childSide (t : Table) (f : Fds) : Option Table := do
  let t ← t.dup2 f.in0 0
  let t ← t.close f.in0
  let t ← t.dup2 f.out1 1
  let t ← if f.out1 ≠ f.err1 then t.close f.out1 else some t
  let t ← t.dup2 f.err1 2
  let t ← t.close f.err1
  some t.execed

/-- The members `writeToStdIn`, `readFromStdOut` and `readFromStdErr`, rt/process/Subprocess.h:72-74, by descriptor. -/
structure Handles where
  writeToStdIn : Option Nat
  readFromStdOut : Option Nat
  readFromStdErr : Option Nat
deriving DecidableEq, Repr

/-- The parent after the fork, rt/process/impl/Subprocess_POSIX.cpp:236-258. -/
def parentSide (s : Sys) (f : Fds) : Option (Sys × Handles) := do
  let t ← s.table.close f.in0
  let t ← t.close f.out1
  let t ← if f.out1 ≠ f.err1 then t.close f.err1 else some t
  some ({ s with table := t }, ⟨f.in1, f.out0, f.err0⟩)

/-- `Subprocess::exec`, rt/process/impl/Subprocess_POSIX.cpp:94-259: this process afterwards, the table of the program
(`none` if the child fails an assertion before it starts) and the handles.  Simplified: `fork` succeeds. -/
def exec (s : Sys) (i : Input) (o : Output) : Option (Sys × Option Table × Handles) :=
  match prepare s i o with
  | none => none
  | some (s1, f) =>
    match parentSide s1 f with
    | none => none
    | some (s2, h) => some (s2, childSide s1.table f, h)

/-! ## The program and its end -/

/-- `StringView::withNullTerminator`, rt/string/StringView.cpp:140-148. -/
def withNullTerminator (a : List UInt8) : List UInt8 := if a.getLast? = some 0 then a else a ++ [0]

/-- What a program sees of a pointer to bytes, rt/process/impl/Subprocess_POSIX.cpp:196: those before the first zero
byte. -/
def cString (a : List UInt8) : List UInt8 := a.takeWhile (fun b => b ≠ 0)

/-- The arguments the program sees, rt/process/impl/Subprocess_POSIX.cpp:184,189-198. -/
def argv (exePath : List UInt8) (args : List (List UInt8)) : List (List UInt8) :=
  cString (withNullTerminator exePath) :: args.map (fun a => cString (withNullTerminator a))

/-- The folder the program runs in, rt/process/impl/Subprocess_POSIX.cpp:185-188,228-230: `chdir` tells whether it
succeeds, its result is not looked at. -/
def startFolder (chdir : List UInt8 → Option (List UInt8)) (here initialDir : List UInt8) : List UInt8 :=
  if initialDir ≠ [] then (chdir (cString (withNullTerminator initialDir))).getD here else here

/-- How a process is to the kernel: running, ended but not yet waited for, or gone.  `killed` is an end by a signal. -/
inductive Status where
  | running
  | exited (code : BitVec 32)
  | killed (signal : Nat)
  | gone
deriving DecidableEq, Repr

/-- What is returned by `join` for a process that has ended, rt/process/impl/Subprocess_POSIX.cpp:49-53: `WEXITSTATUS` is
the low byte of what was passed to `exit`. -/
def exitStatus : Status → Option Int
  | .exited code => some (code.toNat % 256 : Nat)
  | .killed _ => some (-1)
  | _ => none

/-- The object: its `childPID`, rt/process/impl/Subprocess_POSIX.cpp:20 (`none` for -1). -/
structure Object where
  pid : Option Nat
deriving DecidableEq, Repr

/-- The processes known to the kernel by number (kernel). -/
abbrev Procs := Nat → Status

/-- A process with another status (kernel). -/
def Procs.set (p : Procs) (pid : Nat) (st : Status) : Procs := fun i => if i = pid then st else p i

/-- What `join` comes to, rt/process/impl/Subprocess_POSIX.cpp:36-54: an assertion fails, it waits, or it returns.
Interrupted waits (`EINTR`) are begun anew and left out. -/
inductive Joined where
  | assertFails
  | waits
  | returns (status : Int) (procs : Procs) (obj : Object)

/-- `Subprocess_POSIX::join`, rt/process/impl/Subprocess_POSIX.cpp:36-54. -/
def join (procs : Procs) (obj : Object) : Joined :=
  match obj.pid with
  | none => .assertFails
  | some pid =>
    match procs pid with
    | .running => .waits
    | .gone => .assertFails
    | st =>
      match exitStatus st with
      | none => .assertFails
      | some c => .returns c (procs.set pid .gone) ⟨none⟩

/-- `~Subprocess_POSIX`, rt/process/impl/Subprocess_POSIX.cpp:24-34: `none` if an assertion fails. -/
def destroy (procs : Procs) (obj : Object) : Option Procs :=
  match obj.pid with
  | none => some procs
  | some pid =>
    match procs pid with
    | .running => some procs
    | .gone => none
    | _ => some (procs.set pid .gone)

end Verif.Proc
