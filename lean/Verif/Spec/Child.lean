import Verif.Spec.Launch

/-!
# What a child process holds (C89)

The rules are those of CPython's `subprocess` on POSIX, which `asyncio.create_subprocess_exec` uses: the
three standard streams are what the keyword arguments say; of the other descriptors the child keeps those
in `pass_fds` and, if `close_fds` is false and `pass_fds` is empty, the inheritable ones.
-/

namespace Shellous

/-- The descriptor of the calling process behind a `stdin`, `stdout` or `stderr` argument: none for a pipe
made by `asyncio`, `/dev/null`, a standard stream or a file object of the user. -/
def Handle.fd? : Handle → Option Int
  | .int n => if 0 ≤ n then some n else none
  | .file n _ _ => some n
  | .obj _ | .sys _ => none

/-- A process created with the keyword arguments in `s` holds the descriptor `n` of the calling process.
`inh` tells which descriptors are inheritable. -/
def ChildHolds (inh : Int → Prop) (s : LS) (n : Int) : Prop :=
  s.stdin.fd? = some n ∨ s.stdout.fd? = some n ∨ s.stderr.fd? = some n ∨
    (2 < n ∧ n ∈ s.tab ∧ (n ∈ s.passFds ∨ (s.closeFds = some false ∧ s.passFds = [] ∧ inh n)))

/-- The descriptor number in a redirection. -/
def Target.fd : Target → List Int
  | .int n => if 0 ≤ n then [n] else []
  | _ => []

/-- The descriptor numbers that the options of a command mention. -/
def named (o : Options) : List Int := o.input.fd ++ o.output.fd ++ o.error.fd ++ o.passFds

end Shellous
