import Verif.Spec.Run
import Verif.Spec.Wiring
import Verif.Model.Streams

/-!
# One `await cmd`, end to end (C69)

The model describes the launch (`launch`, `wire`: Model/Launch), the life of the run (`execute`: Model/Run) and each
background copy (Model/Streams) separately. Here the three are put together: a run of a command in which each background
task of the second model executes the coroutine that the first model gave to it, according to the third.
-/

namespace Shellous

/-- In the world `w`, the background task `i` has the outcome of its coroutine, which stands at `st`: a task that has
returned executed its coroutine to the end, and `CancelledError` gets into a task only by a `Task.cancel()`. -/
structure Reports (w : W) (i : Nat) (st : Status) : Prop where
  returned : ∀ r, w.outOf i = some (.val r) → st = .done
  cancelled : w.outOf i = some .cancelled → ∃ t, w.tasks[i]? = some t ∧ 0 < t.cancels

/-- What is in a result buffer, and where the copy to it stands, when the copy has seen these events: shellous/runner.py:836-841,
with the `assert` of shellous/redirect.py:252. -/
def bufferCopy (limit : Option Int) (evs : List SEv) : Bytes × Status :=
  match limit with
  | none => ((copyBytearray [] evs).dest, (copyBytearray [] evs).st)
  | some n =>
    if n < 0 then ([], .raised .assertionError)
    else ((copyBytearrayLimit n.toNat [] evs).dest.1, (copyBytearrayLimit n.toNat [] evs).st)

/-- Where a writing coroutine stands. -/
def WPc.status : WPc → Status
  | .done => .done
  | .raised e => .raised e
  | _ => .running

/-- Contents of the user's in-memory objects. -/
structure Objects where
  bytesIO : Nat → MemIO UInt8
  stringIO : Nat → MemIO Char
  bytearray : Nat → Bytes

/-- Does a copy from this stream append to an object? -/
def Options.appends (o : Options) (src : Stream) : Bool :=
  if src = .procStderr then o.errorAppend else o.outputAppend

/-- `await c` was executed from the launch to its normal end, where it gave `v`:
- `s` is the state of the launch (Model/Launch) when the child runs, and `wd` the background copies and streams;
- `w`, `evs`, `w'` are the world before, the schedule, and the world after (Model/Run);
- `seen x` is what happened at the library's reader of the stream `x` of the child (Model/Streams: the bytes that arrived,
  end of file, exceptions thrown into the copy, and when it ran), `wrote x` the same for a writer;
- `before` and `after` are the contents of the user's objects, to which nobody else writes (and only one of the
  streams). -/
structure Awaited (sys : Sys) (c : Command) (s0 s : LS) (wd : Wired) (cfg : RCfg) (f : Option Exc) (w : W) (evs : List Ev)
    (v : Option Returned) (w' : W) (seen : Stream → List SEv) (wrote : Stream → List WEv) (before after : Objects) :
    Prop where
  launched : launch sys c s0 = (.ok (), s)
  wired : wire sys c.options s = .ok wd
  opts : cfg.opts = c.options
  ioTasks : cfg.ioTasks = wd.tasks.length
  fresh : w.Fresh
  ended : execute (.await f) cfg w evs = (.ok v, w')
  /-- a copy to a buffer of the result -/
  output : ∀ k src limit, wd.tasks[k]? = some (.copy src .outputBytes limit) →
    cfg.outBytes = some (bufferCopy limit (seen src)).1 ∧
      Reports w' (1 + cfg.procsubs + k) (bufferCopy limit (seen src)).2
  error : ∀ k src limit, wd.tasks[k]? = some (.copy src .errorBytes limit) →
    cfg.errBytes = some (bufferCopy limit (seen src)).1 ∧
      Reports w' (1 + cfg.procsubs + k) (bufferCopy limit (seen src)).2
  /-- no buffer, no contents (shellous/runner.py:487-488) -/
  noOutput : s.outputBuf = false → cfg.outBytes = none
  noError : s.errorBuf = false → cfg.errBytes = none
  /-- copies to objects of the user -/
  bytesIO : ∀ k src id limit, wd.tasks[k]? = some (.copy src (.user (.bytesIO id)) limit) →
    after.bytesIO id = (copyBytesio ((before.bytesIO id).setPosition (c.options.appends src)) (seen src)).dest ∧
      Reports w' (1 + cfg.procsubs + k)
        (copyBytesio ((before.bytesIO id).setPosition (c.options.appends src)) (seen src)).st
  bytearray : ∀ k src id limit, wd.tasks[k]? = some (.copy src (.user (.bytearray id)) limit) →
    after.bytearray id = (copyBytearray (setPositionBytearray (before.bytearray id) (c.options.appends src)) (seen src)).dest ∧
      Reports w' (1 + cfg.procsubs + k)
        (copyBytearray (setPositionBytearray (before.bytearray id) (c.options.appends src)) (seen src)).st
  stringIO : ∀ k src id limit, wd.tasks[k]? = some (.copy src (.user (.stringIO id)) limit) →
    after.stringIO id = (copyStringio (cfg.decode · c.options.encoding)
        ((before.stringIO id).setPosition (c.options.appends src)) (seen src)).dest.2 ∧
      Reports w' (1 + cfg.procsubs + k) (copyStringio (cfg.decode · c.options.encoding)
        ((before.stringIO id).setPosition (c.options.appends src)) (seen src)).st
  /-- the input -/
  input : ∀ k b dst eof, wd.tasks[k]? = some (.writeStream b dst eof) →
    Reports w' (1 + cfg.procsubs + k) (writeStream b eof (wrote dst)).pc.status

/-- `v` is what `await c` gives for this output: with `return_result` a result with these bytes, else their decoding. -/
def Gives (c : Command) (decode : Bytes → Text → Except Exc Text) (v : Option Returned) (out : Bytes) : Prop :=
  if c.options.returnResult then ∃ r, v = some (.result r) ∧ r.outputBytes = out ∧ r.encoding = c.options.encoding
  else ∃ t, v = some (.text t) ∧ decode out c.options.encoding = .ok t

/-- The first bytes of the data, up to `error_limit`. -/
def upTo (limit : Option Int) (b : Bytes) : Bytes :=
  match limit with
  | none => b
  | some n => b.take n.toNat

/-- The input of the command is the byte string `b` (of the kinds of input that are known in full at the start). -/
def Sys.inputIs (sys : Sys) (t : Target) (b : Bytes) : Prop :=
  match t with
  | .bytes x => x = b
  | .str x => sys.encode x = .ok b
  | .bytearray id | .bytesIO id => sys.bytesOf id = b
  | .stringIO id => sys.encode (sys.textOf id) = .ok b
  | .redirect .default => b = []
  | _ => False

end Shellous
