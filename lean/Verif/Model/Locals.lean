import Verif.Model.Env
/-
Model of `pBat_PushEnvLocals`/`pBat_PopEnvLocals` (pbat/core/pBat_Env.c:491-614) and of their use around the
expansion of a procedure defined by DEF (pbat/core/pBat_Run.c:453-471).
Simplification: `addr v` is the address of the name copied from slot `v` (names are unique, so this
represents every choice of the allocator).
-/
namespace PBat

/-- The test `(*pVar)->name && *((*pVar)->name) == PBAT_ENV_LOCAL_PREFIX`, pbat/core/pBat_Env.c:516-518. -/
def isLocal (v : Var) : Bool :=
  match v.name with
  | none => false
  | some n => n.txt.head? == some '_'

/-- The macro `PBAT_PUSH_ENVVAR`, pbat/core/pBat_Env.c:491-498. -/
def pushVar (addr : Var → Int) (v : Var) : Var :=
  match v.name with
  | none => v
  | some n => { name := some { addr := addr v, txt := n.txt }, content := v.content, inherit := false,
                prev := { name := some n, content := v.content, inherit := v.inherit } :: v.prev }

/-- The macro `PBAT_POP_ENVVAR`, pbat/core/pBat_Env.c:540-571. -/
def popVar (v : Var) : Var :=
  match v.prev with
  | [] => if v.inherit then v else { v with name := none, content := [] }
  | o :: r => if v.inherit then { v with prev := r }
              else { name := o.name, content := o.content, inherit := o.inherit, prev := r }

/-- A loop `while (... local ...) { f; step }`, pbat/core/pBat_Env.c:516-527 and 588-597. -/
def walk (f : Var → Var) : List Var → List Var
  | [] => []
  | v :: vs => if isLocal v then f v :: walk f vs else v :: vs

/-- The two loops, leftwards from the slot found and rightwards from the next one,
pbat/core/pBat_Env.c:514-536 and 586-609. -/
def walkFrom (f : Var → Var) (l : List Var) (i : Nat) : List Var :=
  (walk f (l.take (i + 1)).reverse).reverse ++ walk f (l.drop (i + 1))

/-- The key `"_"`, pbat/core/pBat_Env.c:503. -/
def localKey : Var := keyVar (some { addr := 1, txt := "_".toList })

/-- `pBat_PushEnvLocals`, pbat/core/pBat_Env.c:500-537. -/
def pushLocals (L : LibC) (e : EnvBuf) (addr : Var → Int) : EnvBuf :=
  match L.bsearch envCompLocal localKey e.vars with
  | none => e
  | some i => { e with vars := walkFrom (pushVar addr) e.vars i }

/-- A slot that `PBAT_POP_ENVVAR` frees (it then sets `sort`), pbat/core/pBat_Env.c:541-551. -/
def frees (v : Var) : Bool := v.prev.isEmpty && !v.inherit

/-- The variable `sort` after the two loops of `pBat_PopEnvLocals`. -/
def popSort (l : List Var) (i : Nat) : Bool :=
  ((l.take (i + 1)).reverse.takeWhile isLocal).any frees || ((l.drop (i + 1)).takeWhile isLocal).any frees

/-- `pBat_PopEnvLocals`, pbat/core/pBat_Env.c:573-614. -/
def popLocals (L : LibC) (e : EnvBuf) : EnvBuf :=
  match L.bsearch envCompLocal localKey e.vars with
  | none => e
  | some i =>
    let l := walkFrom popVar e.vars i
    if popSort e.vars i then { e with vars := L.qsort envCompName l } else { e with vars := l }

/-- Commands of a procedure body: updates, and calls of other procedures. -/
inductive PCmd where
  | set (name : CPtr) (content : List Char) (cpy : Int) (inh : Bool)
  | unset (name : CPtr)
  | call (addr : Var → Int) (body : List PCmd)

mutual
/-- One command; a call is bracketed as in pbat/core/pBat_Run.c:466-468. -/
def pStep (L : LibC) (e : EnvBuf) : PCmd → Option EnvBuf
  | .set n c a inh => setEnvEx L e n c a inh
  | .unset n => some (unSetEnv L e n)
  | .call addr body => (pRun L (pushLocals L e addr) body).map fun e => popLocals L e
/-- A body. -/
def pRun (L : LibC) (e : EnvBuf) : List PCmd → Option EnvBuf
  | [] => some e
  | c :: cs => (pStep L e c).bind fun e => pRun L e cs
end

end PBat
