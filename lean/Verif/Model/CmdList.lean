import Verif.Model.Mem
import Verif.Model.LibC
/-
Model of the table of commands: `libpbat/cmdlist/pBat_CmdList.c`, and of its use by DEF, `pbat/command/pBat_Def.c`.

Simplifications: allocation does not fail; the number of commands is far below `INT_MAX`; reading the command line past its
terminator is undefined behaviour (`ub`); copies of names and macro texts are values.
-/
namespace PBat

/-- `COMMANDINFO`, libpbat/libpBat.h:231-235, and the payload of `COMMANDLIST`: `limit` is `cfFlag & ~PBAT_COMMAND_FLAGS`, `info`
is the procedure or macro text together with the two other bits of `cfFlag`. -/
structure CmdEntry (π : Type) where
  name : List Char
  limit : Nat
  info : π
  deriving DecidableEq, Repr

/-- `COMMANDLIST`, libpbat/libpBat.h:221-229. -/
inductive CmdTree (π : Type) where
  | leaf
  | node (e : CmdEntry π) (l r : CmdTree π)
  deriving DecidableEq, Repr

variable {π : Type}

/-- `pBat_AddCommandDynamic`, libpbat/cmdlist/pBat_CmdList.c:32-125. -/
def CmdTree.add (e : CmdEntry π) : CmdTree π → CmdTree π
  | .leaf => .node e .leaf .leaf
  | .node x l r =>
    if stricmp e.name x.name > 0 then .node x l (r.add e)
    else if stricmp e.name x.name < 0 then .node x (l.add e) r
    else .node x l r

/-- `_pBat_PutSeed`, libpbat/cmdlist/pBat_CmdList.c:171-187. -/
def putSeed (a : List (CmdEntry π)) (b t : Nat) (tree : CmdTree π) : CmdTree π :=
  let m := (b + t) / 2
  if h : m = b ∨ t ≤ b then tree
  else putSeed a m t (putSeed a b m (match a[m - 1]? with | some e => tree.add e | none => tree))
termination_by t - b
decreasing_by all_goals omega

/-- `pBat_MapCommandInfo`, libpbat/cmdlist/pBat_CmdList.c:189-201. -/
def mapInfo (lc : LibC) (a : List (CmdEntry π)) : CmdTree π :=
  let s := lc.qsort (fun x y => stricmp x.name y.name) a
  if ((a.length / 2 : Nat) : Int) - 1 ≠ 0 then putSeed s 0 (a.length + 1) .leaf else .leaf

/-- `_pBat_FillInfoFromList`, libpbat/cmdlist/pBat_CmdList.c:460-481. -/
def CmdTree.entries : CmdTree π → List (CmdEntry π)
  | .leaf => []
  | .node e l r => e :: (l.entries ++ r.entries)

/-- `pBat_ReMapCommandInfo`, libpbat/cmdlist/pBat_CmdList.c:409-434. -/
def reMap (lc : LibC) (t : CmdTree π) : CmdTree π := mapInfo lc t.entries

/-- The characters after which a command word ends, libpbat/cmdlist/pBat_CmdList.c:237-243. -/
def cmdDelim (c : Char) : Bool := c == ' ' || c == ',' || c == ';' || c == '\n' || c == '\t' || c == '/'

/-- `pBat_GetCommandProc`, libpbat/cmdlist/pBat_CmdList.c:203-272.  When the second comparison gives 0 the jump to
`loop_again` repeats for ever. -/
def CmdTree.lookup (line : List Char) : CmdTree π → Res (Option (CmdEntry π))
  | .leaf => .ok none
  | .node x l r =>
    let c := lexCmp ((codes line).take x.name.length) (codes x.name)
    if c > 0 then r.lookup line
    else if c < 0 then l.lookup line
    else if x.limit = 0 then .ok (some x)
    else if line.length < x.limit then .ub
    else match line[x.limit]? with
      | none => .ok (some x)
      | some d =>
        if cmdDelim d then .ok (some x)
        else if stricmp line x.name > 0 then r.lookup line
        else if stricmp line x.name < 0 then l.lookup line
        else .hang

/-- `pBat_ReplaceCommand`, libpbat/cmdlist/pBat_CmdList.c:274-322: `none` is -1. -/
def CmdTree.replace (e : CmdEntry π) : CmdTree π → Option (CmdTree π)
  | .leaf => none
  | .node x l r =>
    let c := lexCmp ((codes e.name).take x.name.length) (codes x.name)
    if c > 0 then (r.replace e).map (.node x l ·)
    else if c < 0 then (l.replace e).map (.node x · r)
    else some (.node { x with limit := e.limit, info := e.info } l r)

/-- DEF with a name and a macro, pbat/command/pBat_Def.c:109-168: the new table, and whether it succeeded.  `force` is the
option `/f`; `info` stands for the macro text and `PBAT_DEF_FLAG`. -/
def defCmd (lc : LibC) (force : Bool) (name : List Char) (info : π) (t : CmdTree π) : Res (CmdTree π × Bool) := do
  let e : CmdEntry π := { name := name, limit := name.length, info := info }
  let found ← t.lookup name
  if found.isSome then
    if force then
      match t.replace e with
      | some t' => pure (t', true)
      | none => pure (t, false)
    else pure (t, false)
  else pure (reMap lc (t.add e), true)

/-- `lpCmdInfo`, pbat/command/pBat_CommandInfo.c:32-82: names, limits, and the procedures by name (the flag
`PBAT_COMMAND_LOOKAHEAD` belongs to the procedure). -/
def defaultCmds : List (CmdEntry String) := [
  ("ECHO", 0, "pBat_CmdEcho"), ("EXIT", 4, "pBat_CmdExit"), ("PAUSE", 5, "pBat_CmdPause"), ("SET", 3, "pBat_CmdSet"),
  ("SETLOCAL", 8, "pBat_CmdSetLocal"), ("ENDLOCAL", 8, "pBat_CmdEndLocal"), ("HELP", 4, "pBat_CmdHelp"),
  ("REM", 3, "pBat_CmdRem"), ("CLS", 3, "pBat_CmdCls"), ("COLOR", 5, "pBat_CmdColor"), ("TITLE", 5, "pBat_CmdTitle"),
  ("TYPE", 4, "pBat_CmdType"), ("MORE", 4, "pBat_CmdMore"), ("GOTO", 4, "pBat_CmdGoto"),
  ("GOTO:", 0, "pBat_CmdGoto"), ("START", 5, "pBat_CmdStart"), ("CD", 2, "pBat_CmdCd"), ("CHDIR", 5, "pBat_CmdCd"),
  ("DIR", 3, "pBat_CmdDir"), ("IF", 2, "pBat_CmdIf"), ("DEL", 3, "pBat_CmdDel"), ("ERASE", 5, "pBat_CmdDel"),
  ("REN", 3, "pBat_CmdRen"), ("RENAME", 6, "pBat_CmdRen"), ("MOVE", 4, "pBat_CmdCopy"), ("MD", 2, "pBat_CmdMkdir"),
  ("MKDIR", 5, "pBat_CmdMkdir"), ("RD", 2, "pBat_CmdRmdir"), ("RMDIR", 5, "pBat_CmdRmdir"),
  ("COPY", 4, "pBat_CmdCopy"), ("FOR", 3, "pBat_CmdFor"), ("(", 0, "pBat_CmdBlock"), ("CALL", 4, "pBat_CmdCall"),
  ("CALL:", 0, "pBat_CmdCall"), ("DEF", 3, "pBat_CmdDef"), ("SHIFT", 5, "pBat_CmdShift"),
  ("FIND", 4, "pBat_CmdFind"), ("BREAK", 5, "pBat_CmdBreak"), ("CHCP", 4, "pBat_CmdChcp"),
  ("PUSHD", 5, "pBat_CmdPushd"), ("POPD", 4, "pBat_CmdPopd"), ("WC", 2, "pBat_CmdWc"), ("XARGS", 5, "pBat_CmdXargs"),
  ("PROMPT", 6, "pBat_CmdPrompt"), ("PECHO", 5, "pBat_CmdPecho"), ("TIMEOUT", 7, "pBat_CmdTimeout"),
  ("MOD", 3, "pBat_CmdMod"), ("LOCALE", 6, "pBat_CmdLocale"), ("VER", 3, "pBat_CmdVer")
  ].map fun (n, l, p) => { name := n.toList, limit := l, info := p }

end PBat
