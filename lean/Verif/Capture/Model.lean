import Mathlib.Logic.Function.Basic
import Mathlib.Data.List.Basic

/-!
# Captured output (C138)

`captured_output` (utils.py 512-532), `sys_pipes`, `pipes` and `Wurlitzer` with its forwarding thread (extern/wurlitzer.py 48-281), and `_run` of a
Corrfunc callable (algorithms/pair_counters/corrfunc/base.py 182-222).

The main thread and the forwarding threads of all open blocks take turns in any order: an execution is a list of events. A C call prints byte by byte into
the buffer of the C library, which is written to file descriptor 1 or 2 at any time, byte by byte; a pipe holds at most `cap` bytes.

Left out: `EBUSY` of `dup2` (48-62), a body that closes descriptors 1 or 2 (the end of file seen by the thread, 174-177), `sys.__stdout__` with another
descriptor, other threads that open files while 1 and 2 are closed (205-212), the functions for IPython, `pipes` with `PIPE` or `STDOUT` (not used by
nbodykit). The blocks are those of a rank that is not `root`; `root` gets the streams that are there (utils.py 518-519).
-/
namespace NBK.Capture

/-- `stdout` or `stderr`. -/
inductive Name where
  | out | err
  deriving DecidableEq, Repr

/-- The descriptors of `sys.__stdout__` and `sys.__stderr__` (wurlitzer.py 96). -/
def Name.fd : Name → Nat
  | .out => 1
  | .err => 2

abbrev Byte := Nat

/-- What a descriptor is open on: a file, or the ends of a pipe. -/
inductive Target where
  | file (i : Nat)
  | rd (p : Nat)
  | wr (p : Nat)
  deriving DecidableEq, Repr

/-- What was written to a text stream: bytes that the thread read at once and decoded (wurlitzer.py 110-125), or text of Python. -/
inductive Piece where
  | c (bytes : List Byte)
  | py (text : List Char)
  deriving DecidableEq, Repr

abbrev Table := Nat → Option Target

/-- The system: the number of descriptors a process may have, the bytes a pipe holds, the bytes the C library buffers. -/
structure Mach where
  limit : Nat
  cap : Nat
  bcap : Nat

/-- The lowest free descriptor. -/
def lowest (m : Mach) (t : Table) : Option Nat := (List.range m.limit).find? fun n => decide (t n = none)

/-- `os.dup(fd)`: an OSError leaves the table as it is. -/
def dup (m : Mach) (t : Table) (fd : Nat) : Except Table (Nat × Table) :=
  match t fd with
  | none => .error t
  | some x =>
    match lowest m t with
    | none => .error t
    | some n => .ok (n, Function.update t n (some x))

/-- `os.pipe()`: the descriptors for reading and writing, or an OSError. -/
def pipe2 (m : Mach) (t : Table) (p : Nat) : Except Table (Nat × Nat × Table) :=
  match lowest m t with
  | none => .error t
  | some r =>
    match lowest m (Function.update t r (some (.rd p))) with
    | none => .error t
    | some w => .ok (r, w, Function.update (Function.update t r (some (.rd p))) w (some (.wr p)))

/-- `_setup_pipe` (wurlitzer.py 95-108): the saved descriptor and that for reading. The table is left as it is when an OSError comes. -/
def setupPipe (m : Mach) (t : Table) (p real : Nat) : Except Table (Nat × Nat × Table) :=
  match dup m t real with
  | .error t => .error t
  | .ok (sv, t1) =>
    match pipe2 m t1 p with
    | .error t => .error t
    | .ok (r, w, t2) => .ok (sv, r, Function.update (Function.update t2 real (some (.wr p))) w none)

/-- What `select` finds ready. -/
inductive Ready where
  | control
  | data (n : Name)
  deriving DecidableEq, Repr

/-- Where the thread is (wurlitzer.py 158-185): in `fflush` of a stream of the C library, before `select`, or with pipes that `select` found ready. -/
inductive Phase where
  | flush (n : Name)
  | select
  | handle (r : List Ready)
  deriving DecidableEq, Repr

/-- A block: `captured_output` with its `Wurlitzer`. Its pipes are `p0` (control), `p0 + 1` and `p0 + 2`, its `StringIO` objects `q0` and `q0 + 1`. -/
structure Frame where
  p0 : Nat
  q0 : Nat
  /-- `old_stdout` and `old_stderr` -/
  old : Name → Nat
  ctlR : Nat
  ctlW : Nat
  /-- `_save_fds` -/
  save : Name → Nat
  /-- `pipe_out` -/
  rdFd : Name → Nat
  /-- the byte has been written to the control pipe -/
  exiting : Bool
  /-- `draining` of the thread -/
  draining : Bool
  /-- the thread has ended -/
  done : Bool
  phase : Phase

def Frame.pipe (f : Frame) : Name → Nat
  | .out => f.p0 + 1
  | .err => f.p0 + 2

/-- The `StringIO` objects. -/
def Frame.new (f : Frame) : Name → Nat
  | .out => f.q0
  | .err => f.q0 + 1

/-- `__enter__` up to the thread (wurlitzer.py 136-156). -/
def setup (m : Mach) (t : Table) (p0 q0 : Nat) (old : Name → Nat) : Except Table (Frame × Table) :=
  match pipe2 m t p0 with
  | .error t => .error t
  | .ok (cr, cw, t1) =>
    match setupPipe m t1 (p0 + 1) 1 with
    | .error t => .error t
    | .ok (s1, r1, t2) =>
      match setupPipe m t2 (p0 + 2) 2 with
      | .error t => .error t
      | .ok (s2, r2, t3) =>
        .ok (⟨p0, q0, old, cr, cw, fun n => match n with | .out => s1 | .err => s2, fun n => match n with | .out => r1 | .err => r2, false, false, false, .flush .out⟩, t3)

/-- The process. Python streams are numbered; `sys` says which are `sys.stdout` and `sys.stderr`. `call` is a C function that runs: whether it keeps the
interpreter lock, and what it still prints. -/
structure St where
  fds : Table
  npipes : Nat
  pipes : Nat → List Byte
  files : Nat → List Byte
  buf : Name → List Byte
  nstreams : Nat
  streams : Nat → List Piece
  sys : Name → Nat
  frames : List Frame
  call : Option (Bool × List (Name × Byte))

/-- What may happen next. -/
inductive Ev where
  /-- `print` of Python -/
  | py (n : Name) (text : List Char)
  /-- a C function is called -/
  | call (gil : Bool) (l : List (Name × Byte))
  /-- it prints a byte -/
  | put (n : Name) (b : Byte)
  /-- the C library writes a byte of its buffer -/
  | drain (n : Name)
  /-- the C function returns -/
  | ret
  /-- a block begins -/
  | enter
  /-- its body has ended, with or without an exception: `__exit__` up to `join` -/
  | finish
  /-- the rest of `__exit__` and the restoring of the streams -/
  | leave
  /-- the thread of a block (0 is the innermost) goes on -/
  | thread (i : Nat)
  deriving DecidableEq, Repr

/-- The main thread waits in `join`. -/
def St.waiting (s : St) : Bool :=
  match s.frames with
  | [] => false
  | f :: _ => f.exiting

/-- A C function that keeps the interpreter lock lets no other thread run. -/
def St.locked (s : St) : Bool :=
  match s.call with
  | some (true, _) => true
  | _ => false

/-- The bytes that the thread reads at once (wurlitzer.py 173). -/
def chunk : Nat := 1024

/-- The descriptors after `__exit__` (wurlitzer.py 203-212). -/
def restore (f : Frame) (t : Table) : Table :=
  let t := Function.update t f.ctlW none
  let t := Function.update (Function.update t 1 none) 2 none
  let t := Function.update (Function.update t 1 (t (f.save .out))) (f.save .out) none
  Function.update (Function.update t 2 (t (f.save .err))) (f.save .err) none

/-- A byte of the buffer is written. -/
def drainTo (m : Mach) (s : St) (n : Name) (b : Byte) (rest : List Byte) : Option St :=
  match s.fds n.fd with
  | some (.file i) => some { s with files := Function.update s.files i (s.files i ++ [b]), buf := Function.update s.buf n rest }
  | some (.wr p) =>
    if (s.pipes p).length < m.cap then some { s with pipes := Function.update s.pipes p (s.pipes p ++ [b]), buf := Function.update s.buf n rest }
    else none
  | _ => none

/-- What `select` returns, in the order of `pipes` (wurlitzer.py 143-152, 163). -/
def ready (s : St) (f : Frame) : List Ready :=
  (if f.exiting && !f.draining then [.control] else []) ++ (if s.pipes (f.pipe .out) ≠ [] then [.data .out] else []) ++
    if s.pipes (f.pipe .err) ≠ [] then [.data .err] else []

/-- A step of the thread of block `f`, the `i`-th (wurlitzer.py 158-188). `fflush` returns when the buffer is empty. -/
def threadStep (s : St) (i : Nat) (f : Frame) : Option St :=
  match f.phase with
  | .flush .out => if s.buf .out = [] then some { s with frames := s.frames.set i { f with phase := .flush .err } } else none
  | .flush .err => if s.buf .err = [] then some { s with frames := s.frames.set i { f with phase := .select } } else none
  | .select =>
    match ready s f with
    | [] =>
      if f.draining then
        some { s with fds := Function.update (Function.update s.fds (f.rdFd .out) none) (f.rdFd .err) none, frames := s.frames.set i { f with done := true } }
      else some { s with frames := s.frames.set i { f with phase := .flush .out } }
    | r => some { s with frames := s.frames.set i { f with phase := .handle r } }
  | .handle [] => some { s with frames := s.frames.set i { f with phase := .flush .out } }
  | .handle (.control :: r) => some { s with fds := Function.update s.fds f.ctlR none, frames := s.frames.set i { f with draining := true, phase := .handle r } }
  | .handle (.data n :: r) =>
    -- reading an empty pipe would raise BlockingIOError in the thread
    if s.pipes (f.pipe n) = [] then none
    else some { s with
      pipes := Function.update s.pipes (f.pipe n) ((s.pipes (f.pipe n)).drop chunk),
      streams := Function.update s.streams (f.new n) (s.streams (f.new n) ++ [.c ((s.pipes (f.pipe n)).take chunk)]),
      frames := s.frames.set i { f with phase := .handle r } }

/-- One event, if it is possible. -/
def step (m : Mach) (s : St) : Ev → Option St
  | .py n text =>
    if s.call.isSome || s.waiting then none
    else some { s with streams := Function.update s.streams (s.sys n) (s.streams (s.sys n) ++ [.py text]) }
  | .call g l => if s.call.isSome || s.waiting then none else some { s with call := some (g, l) }
  | .put n b =>
    match s.call with
    | some (g, x :: l) =>
      if x = (n, b) ∧ (s.buf n).length < m.bcap then some { s with call := some (g, l), buf := Function.update s.buf n (s.buf n ++ [b]) } else none
    | _ => none
  | .drain n =>
    match s.buf n with
    | [] => none
    | b :: rest => drainTo m s n b rest
  | .ret =>
    match s.call with
    | some (_, []) => some { s with call := none }
    | _ => none
  | .enter =>
    -- utils.py 525-528, wurlitzer.py 137-139, 222-253
    if s.call.isSome || s.waiting || s.buf .out ≠ [] || s.buf .err ≠ [] then none
    else
      match setup m s.fds s.npipes s.nstreams s.sys with
      | .error _ => none
      | .ok (f, t) =>
        some { s with
          fds := t, npipes := s.npipes + 3, pipes := Function.update (Function.update s.pipes (f.pipe .out) []) (f.pipe .err) [],
          nstreams := s.nstreams + 2, streams := Function.update (Function.update s.streams (f.new .out) []) (f.new .err) [],
          sys := f.new, frames := f :: s.frames }
  | .finish =>
    -- wurlitzer.py 196-201
    if s.call.isSome || s.waiting || s.buf .out ≠ [] || s.buf .err ≠ [] then none
    else
      match s.frames with
      | [] => none
      | f :: fs => some { s with frames := { f with exiting := true } :: fs }
  | .leave =>
    -- wurlitzer.py 202-214, utils.py 529-532
    match s.frames with
    | [] => none
    | f :: fs => if f.done then some { s with fds := restore f s.fds, sys := f.old, frames := fs } else none
  | .thread i =>
    if s.locked then none
    else
      match s.frames[i]? with
      | none => none
      | some f => if f.done then none else threadStep s i f

/-- An execution. -/
def run (m : Mach) (s : St) : List Ev → Option St
  | [] => some s
  | e :: es => (step m s e).bind fun s' => run m s' es

/-! ## `_run` of a Corrfunc callable -/

/-- The text of a stream, `getvalue()`: `dec` is `bytes.decode(encoding, 'replace')`, applied to each piece that was read. -/
def text (dec : List Byte → List Char) (l : List Piece) : List Char :=
  l.flatMap fun
    | .c b => dec b
    | .py t => t

/-- How the Corrfunc function ends: it returns, raises an `Exception`, or something else (as `KeyboardInterrupt`). -/
inductive End where
  | ok
  | exc (msg : List Char)
  | other
  deriving DecidableEq, Repr

/-- What `_run` does. -/
inductive Res where
  | ok
  /-- RuntimeError, with the parts of its message -/
  | runtime (exc stdout stderr : List Char)
  /-- UnboundLocalError: `out` is not there -/
  | unbound
  | other
  deriving DecidableEq, Repr

/-- `_run` (corrfunc/base.py 202-222): `entered` says whether the block began. -/
def result (dec : List Byte → List Char) (entered : Bool) (e : End) (out err : List Piece) : Res :=
  if entered then
    match e with
    | .ok => .ok
    | .exc msg => .runtime msg (text dec out) (text dec err)
    | .other => .other
  else .unbound

end NBK.Capture
