import Verif.Spec.EndToEnd
import Verif.Model.Sinks

/-!
# One `await cmd`, end to end: the remaining destinations and sources (C69)

As `Awaited` (Spec/EndToEnd), for the copies to a `logging.Logger` and to a `StreamWriter`, and from a `StreamReader`.
-/

namespace Shellous

/-- Where a copy to a `StreamWriter` stands. -/
def SwPc.status : SwPc → Status
  | .done => .done
  | .raised e => .raised e
  | _ => .running

/-- The background copies that `Awaited` does not mention execute their coroutines too: `logged id` are the messages that
the logger `id` got from this run, `moved x` is what happened at a copy from the stream `x` of the child to a
`StreamWriter`, and `lineLimit` the limit of the readers. -/
structure Moved (c : Command) (wd : Wired) (cfg : RCfg) (w' : W) (seen : Stream → List SEv) (wrote moved : Stream → List WEv)
    (lineLimit : Nat) (logged : Nat → List Text) : Prop where
  logger : ∀ k src id limit, wd.tasks[k]? = some (.copy src (.user (.logger id)) limit) →
    logged id = (copyLogger lineLimit (cfg.decode · c.options.encoding) (seen src)).log ∧
      Reports w' (1 + cfg.procsubs + k) (copyLogger lineLimit (cfg.decode · c.options.encoding) (seen src)).ls.st
  writer : ∀ k src id limit, wd.tasks[k]? = some (.copy src (.user (.streamWriter id)) limit) →
    Reports w' (1 + cfg.procsubs + k) (copyStreamwriter (moved src)).pc.status
  reader : ∀ k id dst eof, wd.tasks[k]? = some (.writeReader id dst eof) →
    Reports w' (1 + cfg.procsubs + k) (writeReader eof (wrote dst)).pc.status

end Shellous
