import Verif.Model.Config
import Verif.Model.Run
/-!
# The commands (main.go, init.go, utils.go, run.go:43-66, demo.go:38-60)

The file system is what is at the path of the configuration; the command line library calls the command's `Action` with its arguments.
-/
namespace Rothko

/-- What is at a path: nothing, a symbolic link to nothing, a file, or something that cannot be looked at. (init.go:33-42.) -/
inductive PathSt
  | absent
  | dangling
  | file (content : Bytes)
  | denied
deriving DecidableEq, Repr

/-- How an `Action` ends: without an error, with one that was already reported (`handled`, main.go:16), with another one. (main.go:31-37.) -/
inductive Ended
  | fine
  | handled
  | failed
deriving DecidableEq, Repr

/-- The exit status of the process and whether it prints "unexpected error" (main.go:31-37). -/
def exitStatus : Ended → Nat × Bool
  | .fine => (0, false)
  | .handled => (1, false)
  | .failed => (1, true)

/-- What fails in `ioutil.WriteFile` (init.go:44): opening the file, or writing after `n` bytes. -/
inductive WriteFault
  | opening
  | after (n : Nat)
deriving DecidableEq, Repr

/-- `ioutil.WriteFile(path, text, 0644)`: the file is made or emptied, and then written (init.go:44-45). -/
def writeFile (text : Bytes) (st : PathSt) : Option WriteFault → Bool × PathSt
  | none => match st with
    | .denied => (false, st)
    | _ => (true, .file text)
  | some .opening => (false, st)
  | some (.after n) => match st with
    | .denied => (false, st)
    | _ => (false, .file (text.take n))

/-- The `init` command (init.go:28-52, utils.go:16-25): `st` is what is there when `os.Stat` looks, `st'` when the file is opened for writing (another process may have changed it). -/
def initCommand (text : Bytes) (nargs : Nat) (st st' : PathSt) (flt : Option WriteFault) : Ended × PathSt :=
  if nargs ≠ 0 then (.handled, st')
  else
    match st with
    | .file _ => (.handled, st')
    | .denied => (.failed, st')
    | .absent | .dangling =>
      match writeFile text st' flt with
      | (true, out) => (.fine, out)
      | (false, out) => (.failed, out)

/-- The `run` and `demo` commands (run.go:43-66, demo.go:38-60): the arguments are counted, the file is read, decoded (`toml`) and loaded (config/load.go:36-88), the parts are made (`setup`: the first error of run.go:74-151 or demo.go:62-96), and they run until
`work` has a result. -/
def runCommand {V E : Type} (toml : Bytes → Option (TomlConf V × List (Bytes × List V))) (setup : Conf V → Option E) (nargs : Nat) (path : PathSt) (work : Conf V → Option E) : Ended :=
  if nargs ≠ 1 then .handled
  else
    match path with
    | .file b =>
      match toml b with
      | none => .failed
      | some (t, order) =>
        match loadConf t order with
        | .error _ => .failed
        | .ok conf =>
          match setup conf with
          | some _ => .handled
          | none =>
            match work conf with
            | some _ => .failed
            | none => .fine
    | _ => .failed

end Rothko
