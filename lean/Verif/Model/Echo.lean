import Verif.Model.Prompt
import Verif.Model.Var
/-
Model of ECHO, `pbat/command/pBat_Echo.c`.

Simplifications: the mutex is obtained; messages of error are not part of the output.
-/
namespace PBat

/-- What an ECHO command leaves: `bEchoOn`, what is written on the standard output and the status. -/
structure EchoOut where
  on : Bool
  out : List Char
  status : Nat
  deriving DecidableEq, Repr

/-- The texts of the interpreter: the help, `lpMsgEchoOn` and `lpMsgEchoOff`. -/
structure EchoMsgs where
  help : List Char
  isOn : List Char
  isOff : List Char

/-- The decision on the parameters, pbat/command/pBat_Echo.c:79-97: `t` is the first parameter, `alone` tells that there is no other,
`rest` is the text after the first character. -/
def echoWord (ex : List Char → Res (List Char)) (m : EchoMsgs) (on : Bool) (t : List Char) (alone : Bool) (rest : List Char) :
    Res EchoOut :=
  if stricmp t "OFF".toList = 0 ∧ alone = true then .ok ⟨false, [], 0⟩
  else if stricmp t "ON".toList = 0 ∧ alone = true then .ok ⟨true, [], 0⟩
  else if t = "/?".toList ∧ alone = true then .ok ⟨on, m.help, 0⟩
  else do
    let s ← ex rest
    .ok ⟨on, s ++ ['\n'], 0⟩

/-- `pBat_CmdEcho`, pbat/command/pBat_Echo.c:43-115; `line` is the text after `ECHO`, `ex` is `pBat_DelayedExpand`. -/
def cmdEcho (ex : List Char → Res (List Char)) (m : EchoMsgs) (on : Bool) (line : List Char) : Res EchoOut :=
  if glued line then .ok ⟨on, [], 3⟩
  else match line with
    | [] => .ok ⟨on, (if on then m.isOn else m.isOff) ++ ['\n'], 0⟩
    | c :: rest =>
      if ispunct c then do
        let s ← ex rest
        .ok ⟨on, s ++ ['\n'], 0⟩
      else do
        let p ← nextParam stdDelims ex line
        match p with
        | none => .ok ⟨on, (if on then m.isOn else m.isOff) ++ ['\n'], 0⟩
        | some (t, tail) => do
          let p2 ← nextParam stdDelims ex tail
          echoWord ex m on t p2.isNone rest

end PBat
