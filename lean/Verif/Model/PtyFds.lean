/-
The descriptors of a terminal during a run (shellous/pty_util.py:35-78 `ChildFd`, `PtyFds`; 106-181
`PtyStreamReaderProtocol`, `_open_pty_streams`; shellous/runner.py:335-379 `_setup_pty`, 712-732 `_subprocess_spawn`,
898-904 `_close`; shellous/util.py:59-74 `close_fds`), on a descriptor table that the rest of the process uses too.

The two asyncio transports are modelled after CPython's `_UnixReadPipeTransport` and `_UnixWritePipeTransport`
(Lib/asyncio/unix_events.py): `close()` of the reader stops watching at once; `close()` of the writer closes the file when
its buffer has been written; an error of `write` closes the file as soon as the loop gets to it.
-/
namespace Shellous.PtyFds

/-- Linux, macOS, FreeBSD: shellous/util.py `BSD_DERIVED`, `BSD_FREEBSD`. -/
inductive Plat where
  | linux
  | macos
  | freebsd
deriving DecidableEq

/-- shellous/util.py `BSD_DERIVED`. -/
def Plat.bsd : Plat → Bool
  | .linux => false
  | _ => true

/-- Whose descriptor a number is at the moment. -/
inductive Owner where
  | child
  | parent
  | other (k : Nat)
deriving DecidableEq

/-- How far the launch has come. -/
inductive Phase where
  | opened      -- after `open_pty`
  | reading     -- the read transport is connected
  | streams     -- `open_streams` has returned
  | spawned     -- `create_subprocess_exec` has returned
  | cleaned     -- `_RunOptions.__exit__` has run
  | failed      -- the launch raised
deriving DecidableEq

/-- An asyncio transport. -/
inductive Trans where
  | absent
  | active
  | closing
  | lost
deriving DecidableEq

/-- The process: its descriptor table, the fields of `PtyFds`, `ChildFd`, the protocol and the two transports. -/
structure S where
  table : Nat → Option Owner
  /-- Owners of the descriptors that shellous or its transports have closed, latest first. `none`: the number was free. -/
  closed : List (Option Owner) := []
  phase : Phase := .opened
  /-- `ChildFd.child_fd`; -1 after `close`. -/
  childFd : Int
  /-- The number that `_setup_pty` has put into the arguments of the child (runner.py:366-375). -/
  childNum : Nat
  parentFd : Nat
  reader : Trans := .absent
  writer : Trans := .absent
  /-- Bytes in the buffer of the write transport. -/
  buf : Nat := 0
  /-- `pty__child_fd` is not None. -/
  protoRef : Bool := false
  /-- `pty__timer` is armed. -/
  timer : Bool := false
  /-- What the child was given as its terminal, when it was launched. -/
  given : Option (Option Owner) := none

/-- `os.close(n)`: shellous/util.py:64-69; an error (free number) is logged. -/
def S.osClose (s : S) (n : Nat) : S :=
  { s with table := fun m => if m = n then none else s.table m, closed := s.table n :: s.closed }

/-- shellous/pty_util.py:42-47 `ChildFd.close`, with shellous/util.py:64-66. -/
def S.childClose (s : S) : S :=
  if 0 ≤ s.childFd then { s with childFd := -1 }.osClose s.childFd.toNat else s

/-- shellous/pty_util.py:124-127 `_close_child_fd`. -/
def S.protoClose (s : S) : S :=
  if s.protoRef then { s.childClose with protoRef := false } else s

/-- CPython Lib/asyncio/unix_events.py `_UnixWritePipeTransport._call_connection_lost`: closes the file, which owns the
descriptor (`closefd=True`, shellous/pty_util.py:167). -/
def S.writerLost (s : S) : S :=
  { s.osClose s.parentFd with writer := .lost, buf := 0 }

/-- `_UnixReadPipeTransport.close` and, in the protocol, shellous/pty_util.py:112-120 `connection_lost`, which cancels the
timer. The file does not own the descriptor (`closefd=False`, shellous/pty_util.py:162). -/
def S.readerLost (s : S) : S :=
  if s.reader = .active then { s with reader := .lost, timer := false } else s

/-- shellous/pty_util.py:171-179: `writer.close()` with the patch. The original closes the file at once if nothing is
buffered (simplified: `call_soon` is not delayed), else when the buffer has been written. -/
def S.writerClose (s : S) : S :=
  let s1 := if s.writer = .active then
      if s.buf = 0 then s.writerLost else { s with writer := .closing }
    else s
  s1.readerLost

/-- shellous/pty_util.py:70-78 `PtyFds.close`. -/
def S.fdsClose (s : S) : S :=
  let s1 := s.childClose
  if s1.writer ≠ .absent then s1.writerClose else s1.osClose s1.parentFd

/-- What can happen. -/
inductive Ev where
  /-- Another part of the process opens a descriptor (the kernel picks a free number), or closes its own. -/
  | foreignOpen (n k : Nat)
  | foreignClose (n : Nat)
  /-- `connect_read_pipe`, `connect_write_pipe` return or raise (shellous/pty_util.py:160-168). -/
  | connectRead (ok : Bool)
  | connectWrite (ok : Bool)
  /-- `create_subprocess_exec` returns or raises (shellous/runner.py:727); the exit of the `with` block
  (runner.py:649-650, `_cleanup`) follows. -/
  | spawn (ok : Bool)
  | cleanup
  /-- The reader gets bytes, or reads EIO or end of file. -/
  | data
  | hangup
  /-- `call_later(2.0, self._close_child_fd)` fires (shellous/pty_util.py:136). -/
  | timer
  /-- Somebody writes `n` bytes that the terminal does not take at once; the buffer is written; a write fails. -/
  | write (n : Nat)
  | flush
  | writeError
  /-- `run.stdin.close()` by the user. -/
  | userClose
  /-- `Runner._close` (shellous/runner.py:903-904): only after the launch. -/
  | close
deriving DecidableEq

/-- One step; events that cannot happen change nothing. -/
def step (p : Plat) (s : S) : Ev → S
  | .foreignOpen n k =>
    if s.table n = none then { s with table := fun m => if m = n then some (.other k) else s.table m } else s
  | .foreignClose n =>
    match s.table n with
    | some (.other _) => { s with table := fun m => if m = n then none else s.table m }
    | _ => s
  | .connectRead ok =>
    if s.phase = .opened then
      if ok then
        -- shellous/pty_util.py:158: the protocol gets the ChildFd; 131-136: the timer is set on FreeBSD only;
        -- the methods that use them exist on BSD only
        { s with phase := .reading, reader := .active, protoRef := p.bsd, timer := p = .freebsd }
      else { s with phase := .failed }
    else s
  | .connectWrite ok =>
    if s.phase = .reading then
      if ok then { s with phase := .streams, writer := .active }
      -- `connect_write_pipe` closes its transport, which closes the file; `opts.pty_fds` keeps its old value, and
      -- `_close` is not called
      else { s.writerLost with phase := .failed }
    else s
  | .spawn ok =>
    if s.phase = .streams then
      if ok then { s with phase := .spawned, given := some (s.table s.childNum) }
      else { s with phase := .failed }
    else s
  | .cleanup =>
    -- shellous/runner.py:360-361: the ChildFd is in `open_fds` unless BSD
    let s1 := if p.bsd then s else s.childClose
    if s.phase = .spawned then { s1 with phase := .cleaned }
    else if s.phase = .failed then s1
    else s
  | .data =>
    if s.reader = .active ∧ (s.phase = .spawned ∨ s.phase = .cleaned) then
      if p.bsd then s.protoClose else s
    else s
  | .hangup => if s.phase = .spawned ∨ s.phase = .cleaned then s.readerLost else s
  | .timer => if s.timer then { s.protoClose with timer := false } else s
  | .write n => if s.writer = .active ∧ s.phase = .cleaned then { s with buf := s.buf + n } else s
  | .flush =>
    if s.writer = .closing then s.writerLost
    else if s.writer = .active then { s with buf := 0 }
    else s
  | .writeError =>
    if s.writer = .closing ∨ (s.writer = .active ∧ s.phase = .cleaned) then s.writerLost else s
  | .userClose => if s.phase = .cleaned then s.writerClose else s
  | .close => if s.phase = .cleaned then s.fdsClose else s

/-- A history. -/
def run (p : Plat) (s : S) (es : List Ev) : S := es.foldl (step p) s

/-- After `open_pty` (shellous/pty_util.py:81-94): two numbers that were free. -/
def start (table : Nat → Option Owner) (c q : Nat) : S where
  table := fun m => if m = c then some .child else if m = q then some .parent else table m
  childFd := c
  childNum := c
  parentFd := q

end Shellous.PtyFds
