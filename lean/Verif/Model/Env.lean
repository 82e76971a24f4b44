import Verif.Model.LibC
import Verif.Model.Mem
/-
Model of the environment of `pbat/core/pBat_Env.c`.

Names are texts at an address, because `pBat_EnvCompName` compares addresses when a slot is dead: `addr` is
the low 32 bits of the address seen as an `int`, the only part the comparison can observe.
Simplification: memory allocation succeeds (the code aborts otherwise).
-/
namespace PBat

/-- A C string at some address. -/
structure CPtr where
  addr : Int
  txt : List Char
  deriving DecidableEq, Repr

/-- A saved `ENVVAR` (`previous` chain), pbat/core/pBat_Env.h:26-35. -/
structure OldVar where
  name : Option CPtr
  content : List Char
  inherit : Bool
  deriving DecidableEq, Repr

/-- `ENVVAR`, pbat/core/pBat_Env.h:26-35; `name = none` is the NULL name of a dead slot, `prev` the chain
`previous`. -/
structure Var where
  name : Option CPtr
  content : List Char
  inherit : Bool
  prev : List OldVar
  deriving DecidableEq, Repr

/-- `ENVBUF`, pbat/core/pBat_Env.h:38-42: `nb` allocated entries, `vars` the `index` used ones. -/
structure EnvBuf where
  nb : Nat
  vars : List Var
  deriving DecidableEq, Repr

/-- `pBat_EnvCompName`, pbat/core/pBat_Env.c:35-43. -/
def envCompName (a b : Var) : Int :=
  match a.name, b.name with
  | some x, some y => stricmp x.txt y.txt
  | none, none => 0
  | none, some y => y.addr
  | some x, none => -x.addr

/-- `pBat_EnvCompLocal`, pbat/core/pBat_Env.c:45-53 (an empty name reads its terminator). -/
def envCompLocal (_ b : Var) : Int :=
  match b.name with
  | none => -('_'.toNat : Int)
  | some y => (match y.txt with | [] => 0 | c :: _ => (c.toNat : Int)) - '_'.toNat

/-- `pBat_ReAllocEnvBuf` rounding, pbat/core/pBat_Env.c:59-63 (non-negative counts). -/
def roundNb (n : Nat) : Nat := n / 128 * 128 + 127 + 1

/-- `pBat_AdjustVarName`, pbat/core/pBat_Env.c:137-152: `best` is the text up to `pLast`. -/
def adjustLoop (pre : List Char) (best : Option (List Char)) : List Char → Option (List Char)
  | [] => best
  | c :: cs =>
    if c ≠ '\t' ∧ c ≠ ' ' then adjustLoop (pre ++ [c]) (some (pre ++ [c])) cs
    else adjustLoop (pre ++ [c]) best cs

/-- `pBat_AdjustVarName` entry point. -/
def adjustVarName (s : List Char) : List Char := (adjustLoop [] none s).getD s

/-- The key structures built on the stack (`{name, NULL}`). -/
def keyVar (n : Option CPtr) : Var := { name := n, content := [], inherit := false, prev := [] }

/-- `pBat_GetEnv`, pbat/core/pBat_Env.c:225-242. -/
def getEnv (L : LibC) (e : EnvBuf) (name : CPtr) : Option (List Char) :=
  match L.bsearch envCompName (keyVar (some name)) e.vars with
  | none => none
  | some i => (e.vars[i]?).bind fun v => v.name.map fun _ => v.content

/-- `pBat_UnSetEnv`, pbat/core/pBat_Env.c:358-379. -/
def unSetEnv (L : LibC) (e : EnvBuf) (name : CPtr) : EnvBuf :=
  match L.bsearch envCompName (keyVar (some name)) e.vars with
  | none => e
  | some i =>
    match e.vars[i]? with
    | none => e
    | some v =>
      if v.prev = [] then
        { e with vars := L.qsort envCompName (e.vars.set i { v with name := none, content := [] }) }
      else e

/-- `pBat_SetEnvEx`, pbat/core/pBat_Env.c:254-350; `cpy` is the address of the copied name.  `none` is a
write outside the array. -/
def setEnvEx (L : LibC) (e : EnvBuf) (name : CPtr) (content : List Char) (cpy : Int) (inh : Bool) :
    Option EnvBuf :=
  if content = [] then some (unSetEnv L e name)
  else
    let nm : CPtr := { addr := cpy, txt := adjustVarName name.txt }
    match L.bsearch envCompName (keyVar (some nm)) e.vars with
    | some i => (e.vars[i]?).map fun v =>
        { e with vars := e.vars.set i { v with content := content, inherit := v.inherit || inh } }
    | none =>
      match L.bsearch envCompName (keyVar none) e.vars with
      | some i => (e.vars[i]?).map fun v =>
          let v' : Var := { name := some nm, content := content, inherit := v.inherit || inh, prev := [] }
          { e with vars := L.qsort envCompName (e.vars.set i v') }
      | none =>
        let nb := if e.vars.length = e.nb then roundNb (e.nb + 1) else e.nb
        if e.vars.length < nb then
          let v : Var := { name := some nm, content := content, inherit := inh, prev := [] }
          some { nb := nb, vars := L.qsort envCompName (e.vars ++ [v]) }
        else none

/-- One variable of `pBat_InitEnv`, pbat/core/pBat_Env.c:185-200: the blanks are trimmed from the whole
`NAME=VALUE` string, which is then cut at its first `=` (`none`: no `=`, the program aborts). -/
def initVar (s : CPtr) : Option Var :=
  if '=' ∈ s.txt then
    let t := adjustVarName s.txt
    let n := t.takeWhile (· ≠ '=')
    some { name := some { addr := s.addr, txt := n }, content := t.drop (n.length + 1), inherit := false,
           prev := [] }
  else none

/-- `pBat_InitEnv`, pbat/core/pBat_Env.c:154-217; each string comes with the address of the name copied
from it. -/
def initEnv (L : LibC) (env : List CPtr) : Option EnvBuf :=
  (env.mapM initVar).map fun vs => { nb := roundNb (env.length + 1), vars := L.qsort envCompName vs }

/-- `pBat_EnvDup`, pbat/core/pBat_Env.c:80-104; `addr i` is the address of the `i`-th copied name. -/
def envDup (e : EnvBuf) (addr : Nat → Int) : EnvBuf :=
  { nb := e.nb
    vars := e.vars.mapIdx fun i v =>
      match v.name with
      | none => { name := none, content := [], inherit := false, prev := [] }
      | some n => { name := some { addr := addr i, txt := n.txt }, content := v.content, inherit := false,
                    prev := [] } }

/-- The bytes of one entry written by `pBat_GetEnvBlock`, pbat/core/pBat_Env.c:477-479. -/
def blockEntry (n : CPtr) (v : Var) : List Char := n.txt ++ '=' :: v.content ++ [NUL]

/-- First loop of `pBat_GetEnvBlock`, pbat/core/pBat_Env.c:452-463. -/
def blockSize : List Var → Nat
  | [] => 0
  | v :: vs =>
    match v.name with
    | none => blockSize vs
    | some n => v.content.length + n.txt.length + 2 + blockSize vs

/-- Second loop of `pBat_GetEnvBlock`, pbat/core/pBat_Env.c:472-483; `none` is a write outside the block. -/
def blockFill (b : List Char) (p : Nat) : List Var → Option (List Char × Nat)
  | [] => some (b, p)
  | v :: vs =>
    match v.name with
    | none => blockFill b p vs
    | some n => do
      let b ← wr b p (blockEntry n v)
      blockFill b (p + (v.content.length + n.txt.length + 2)) vs

/-- `pBat_GetEnvBlock`, pbat/core/pBat_Env.c:446-489: the block and the size reported. -/
def envBlock (g : Nat → Char) (e : EnvBuf) : Option (List Char × Nat) := do
  let size := blockSize e.vars + 1
  let (b, p) ← blockFill ((List.range size).map g) 0 e.vars
  let b ← wr b p [NUL]
  pure (b, size)

end PBat

namespace PBat

/-- An operation on the environment: `pBat_SetEnv` (`pBat_SetEnvEx` with `inherit` 0, pBat_Env.h), its
inheriting variant, `pBat_UnSetEnv`, and a read. -/
inductive EnvOp where
  | set (name : CPtr) (content : List Char) (cpy : Int) (inh : Bool)
  | unset (name : CPtr)
  | get (name : CPtr)
  deriving DecidableEq, Repr

/-- A history of operations; the answers to the reads are collected.  `none` is undefined behaviour. -/
def runEnv (L : LibC) : EnvBuf → List EnvOp → Option (EnvBuf × List (Option (List Char)))
  | e, [] => some (e, [])
  | e, .set n c a inh :: ops => (setEnvEx L e n c a inh).bind fun e => runEnv L e ops
  | e, .unset n :: ops => runEnv L (unSetEnv L e n) ops
  | e, .get n :: ops => (runEnv L e ops).map fun r => (r.1, getEnv L e n :: r.2)

end PBat
