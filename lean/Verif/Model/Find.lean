/-!
# Finding the program: shellous/command.py `which`, `find_command`, and shellous/runner.py:113-119

Names and search paths are sequences of characters (POSIX; `str` and `bytes` behave alike). What the file system says about a path, "there is a file that can be
executed", is a parameter: relative paths are relative to the current directory of the parent, which the child shares.
-/

namespace Shellous.Find

abbrev Str := List Char

/-- `s.split(":")`, `s.split("/")`: Python's `str.split` with a separator. -/
def splitOn (c : Char) : Str → List Str
  | [] => [[]]
  | x :: xs =>
    if x = c then [] :: splitOn c xs
    else match splitOn c xs with
      | [] => [[x]]
      | y :: ys => (x :: y) :: ys

/-- CPython `os.path.dirname(s) != ""` (posixpath): there is a slash in it. -/
def hasDir (s : Str) : Bool := s.contains '/'

/-- CPython `os.path.join(dir, name)` for a name that does not begin with a slash. -/
def join (dir name : Str) : Str :=
  if dir = [] ∨ dir.getLast? = some '/' then dir ++ name else dir ++ '/' :: name

/-- What the parent has: the `path` option, the `PATH` environment variable, `os.confstr("CS_PATH")`/`os.defpath`, and the file system. -/
structure Env where
  /-- `Options.path` -/
  path : Option Str := none
  /-- The parent's environment variable `PATH`. -/
  environ : Option Str := none
  csPath : Str := []
  /-- `os.defpath`, as used by `os.get_exec_path`. -/
  defpath : Str := []
  /-- `PATH` in the environment of the child (shellous/command.py `Options.merge_env`; `none` if it has none). -/
  childPath : Option Str := none
  /-- `shutil._access_check(p, F_OK | X_OK)`, and whether `execve` of `p` succeeds. -/
  exe : Str → Bool

/-- CPython `shutil.which`: the loop over the directories, with the set of those seen. -/
def search (exe : Str → Bool) (name : Str) (seen : List Str) : List Str → Option Str
  | [] => none
  | d :: ds =>
    if d ∈ seen then search exe name seen ds
    else if exe (join d name) then some (join d name) else search exe name (d :: seen) ds

/-- CPython `shutil.which`: the search path. -/
def Env.searchPath (e : Env) : Str :=
  match e.path with
  | some p => p
  | none => e.environ.getD e.csPath

/-- shellous/command.py:266-270 `Options.which`: `shutil.which(name, path=self.path)`. -/
def Env.which (e : Env) (name : Str) : Option Str :=
  if hasDir name then if e.exe name then some name else none
  else if e.searchPath = [] then none
  else search e.exe name [] (splitOn ':' e.searchPath)

/-- CPython `PurePosixPath`: the root of a path. -/
def rootStr : Str → Str
  | '/' :: '/' :: '/' :: _ => ['/']
  | '/' :: '/' :: _ => ['/', '/']
  | '/' :: _ => ['/']
  | _ => []

/-- CPython `str(Path(s))` (posix): two leading slashes are kept, more are one; empty components and `.` are dropped; nothing left is `.`. -/
def pathStr (s : Str) : Str :=
  let parts := (splitOn '/' s).filter fun p => p ≠ [] ∧ p ≠ ['.']
  let r := rootStr s ++ (List.intersperse ['/'] parts).flatten
  if r = [] then ['.'] else r

/-- shellous/command.py:386-398 `CmdContext.find_command`: as a string. -/
def Env.findCommand (e : Env) (name : Str) : Option Str :=
  match e.which name with
  | some r => if r = [] then none else some (pathStr r)
  | none => none

/-- What becomes of a launch. -/
inductive Launch where
  /-- FileNotFoundError before anything is started. -/
  | notFound
  /-- `execve` of this file. -/
  | runs (file : Str)
  /-- `execve` fails in the child: FileNotFoundError (or PermissionError) from `create_subprocess_exec`. -/
  | failed
deriving DecidableEq, Repr

/-- CPython `subprocess.Popen._execute_child`: the files that are tried, one after the other. -/
def Env.execList (e : Env) (file : Str) : List Str :=
  if hasDir file then [file] else (splitOn ':' (e.childPath.getD e.defpath)).map fun d => join d file

/-- `execve`: the first of them that can be executed. -/
def Env.exec (e : Env) (file : Str) : Launch :=
  match (e.execList file).find? e.exe with
  | some f => .runs f
  | none => .failed

/-- shellous/runner.py:113-119 (`_RunOptions.__enter__`), then the launch of `pos_args[0]`. -/
def Env.launch (e : Env) (name : Str) : Launch :=
  if hasDir name then e.exec name
  else match e.which name with
    | none => .notFound
    | some f => e.exec f

end Shellous.Find
