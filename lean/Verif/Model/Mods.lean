import Verif.Model.CmdList
import Verif.Model.FilePath
/-
Model of the command MOD, `pbat/command/pBat_Mod.c`, over the table of commands of C21.

A module is what `dlopen` finds at a path: whether it can be loaded and has a handler, the names its handler registers, in order, and whether the
handler then returns -1, which it decides from the results of the registrations.  The parameters are those
`pBat_GetNextParameterEs` extracts (C14). Simplifications: allocation does not fail; the handler does nothing else than registering
commands; built with modules; not Windows.
-/
namespace PBat.Mods

/-- A file that can be given to `dlopen`. -/
structure Module where
  opens : Bool
  names : List (List Char)
  refuses : List Bool → Bool

/-- Whose code a command runs: the interpreter's, a macro, or a module's, named by the path it was loaded from. -/
inductive Owner where
  | program (p : String)
  | module (path : List Char)
  deriving DecidableEq, Repr

/-- The globals `modules` (their names, the last loaded first) and `lpclCommands`. -/
structure State where
  loaded : List (List Char)
  table : CmdTree Owner
  deriving DecidableEq, Repr

/-- What MOD shows: the list of modules, the help, or an error with its number. -/
inductive Shown where
  | mods (names : List (List Char))
  | help
  | error (code : Nat) (text : List Char)
  deriving DecidableEq, Repr

/-- `pBat_ModRegisterCommand`, pbat/command/pBat_Mod.c:87-140: the table and whether the result is `PBAT_NO_ERROR`. -/
def register (lc : LibC) (path name : List Char) (t : CmdTree Owner) : Res (CmdTree Owner × Bool) :=
  match t.lookup name with
  | .ub => .ub
  | .hang => .hang
  | .ok (some _) => .ok (t, false)
  | .ok none => .ok (reMap lc (t.add { name := name, limit := name.length, info := .module path }), true)

/-- The registrations of a handler: the table, the results, and the errors shown (`PBAT_TRY_REDEFINE_COMMAND`, 37). -/
def registerAll (lc : LibC) (path : List Char) : List (List Char) → CmdTree Owner → Res (CmdTree Owner × List Bool × List Shown)
  | [], t => .ok (t, [], [])
  | n :: ns, t =>
    match register lc path n t with
    | .ub => .ub
    | .hang => .hang
    | .ok (t', b) =>
      match registerAll lc path ns t' with
      | .ub => .ub
      | .hang => .hang
      | .ok (t'', bs, out) => .ok (t'', b :: bs, if b then out else .error 37 n :: out)

/-- `pBat_LoadMod`, pbat/command/pBat_Mod.c:223-268: the state, the result and what is shown.  After `dlclose` the commands that were
registered stay in the table. -/
def loadMod (lc : LibC) (m : Module) (path : List Char) (st : State) : Res (State × Nat × List Shown) :=
  if m.opens = false then .ok (st, 59, [.error 59 path])
  else
    match registerAll lc path m.names st.table with
    | .ub => .ub
    | .hang => .hang
    | .ok (t, bs, out) =>
      if m.refuses bs then .ok ({ st with table := t }, 60, out ++ [.error 60 path])
      else .ok ({ loaded := path :: st.loaded, table := t }, 0, out)

/-- `PBAT_TEST_ABSOLUTE_PATH`, libpbat/libpBat.h:390-392. -/
def rooted (p : List Char) : Bool := p.head? == some '/' && p[1]? != some '/'

/-- The path of a module, pbat/command/pBat_Mod.c:317-334: a null `PBAT_PATH` is given to `pBat_EsCat`. -/
def modPath (home : Option (List Char)) (p : List Char) : Res (List Char) :=
  if rooted p then .ok p
  else
    match home with
    | none => .ub
    | some d => .ok (makePath (makePath d ['m', 'o', 'd', 'u', 'l', 'e', 's']) p)

/-- The loop of `pBat_CmdMod`, pbat/command/pBat_Mod.c:303-364: the state, the status and what is shown. `files` is what is found at
a path, `home` is `%PBAT_PATH%`. -/
def modLoop (lc : LibC) (files : List Char → Option Module) (home : Option (List Char)) (quiet : Bool) :
    List (List Char) → State → Res (State × Nat × List Shown)
  | [], st => .ok (st, 0, [])
  | p :: ps, st =>
    if stricmp p ['/', 'l'] = 0 then .ok (st, 0, [.mods st.loaded])
    else if p = ['/', '?'] then .ok (st, 0, [.help])
    else if stricmp p ['/', 'q'] = 0 then modLoop lc files home true ps st
    else
      match modPath home p with
      | .ub => .ub
      | .hang => .hang
      | .ok path =>
        match files path with
        | none => .ok (st, 1, [.error 1 path])
        | some m =>
          if st.loaded.any (fun x => stricmp path x = 0) then
            if quiet then modLoop lc files home quiet ps st
            else .ok (st, 61, [.error 61 path])
          else
            match loadMod lc m path st with
            | .ub => .ub
            | .hang => .hang
            | .ok (st', code, out) =>
              if code ≠ 0 then .ok (st', code, out)
              else
                match modLoop lc files home quiet ps st' with
                | .ub => .ub
                | .hang => .hang
                | .ok (st'', code, out') => .ok (st'', code, out ++ out')

/-- `pBat_CmdMod`, pbat/command/pBat_Mod.c:281-381, on the words after `mod`. -/
def cmdMod (lc : LibC) (files : List Char → Option Module) (home : Option (List Char)) (words : List (List Char)) (st : State) :
    Res (State × Nat × List Shown) := modLoop lc files home false words st

end PBat.Mods
