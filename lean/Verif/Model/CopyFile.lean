import Verif.Model.Mem
/-
Model of `pBat_CopyFile`, `pBat_CatFile` and `pBat_MoveFile`, pbat/command/pBat_Copy.c:491-700.
-/
namespace PBat

/-- The contents of the files, by name. -/
abbrev Disk := List Char → Option (List Char)

/-- The file `p` has the contents `x` from now on. -/
def Disk.set (f : Disk) (p x : List Char) : Disk := fun q => if q = p then some x else f q

/-- What happens at a call of `read` or `write`: at most `k` bytes pass, or there is an error (as an interruption, a full disk). -/
inductive IoEv where
  | n (k : Nat)
  | err
  deriving DecidableEq

/-- The contents after a `write` of `data` at `off` (or at the end, if `app`).  System call. -/
def writeAt (app : Bool) (off : Nat) (old data : List Char) : List Char :=
  if app then old ++ data else old.take off ++ List.replicate (off - old.length) '\x00' ++ data ++ old.drop (off + data.length)

/-- The loops of pbat/command/pBat_Copy.c:550-583 and 654-687, one event for each system call, until they end; `none`: they have not yet.
`ro`, `wo`: the positions in the files.  The last argument is `buf` and `writen` during the inner loop.  `writen += write(…)`: an error
(-1) takes one from `writen`, and is noticed only if that gives -1 itself.  A `read` gives at least one byte if there is one. -/
def copyBytes (src dst : List Char) (app : Bool) (code : Int) : List IoEv → Disk → Nat → Nat → Option (List Char × Nat) → Option (Disk × Int)
  | [], _, _, _, _ => none
  | e :: es, f, ro, wo, none =>
    match e with
    | .err => some (f, code)
    | .n k =>
      if ((f src).getD []).drop ro = [] then some (f, 0)
      else
        let chunk := (((f src).getD []).drop ro).take (min (max k 1) 2048)
        copyBytes src dst app code es f (ro + chunk.length) wo (some (chunk, 0))
  | e :: es, f, ro, wo, some (buf, writen) =>
    match e with
    | .err => if writen = 0 then some (f, code) else copyBytes src dst app code es f ro wo (some (buf, writen - 1))
    | .n k =>
      let d := (buf.drop writen).take k
      let f := f.set dst (writeAt app wo ((f dst).getD []) d)
      if writen + d.length = buf.length then copyBytes src dst app code es f ro (wo + d.length) none
      else copyBytes src dst app code es f ro (wo + d.length) (some (buf, writen + d.length))

/-- `pBat_CopyFile`, pbat/command/pBat_Copy.c:507-596.  `opens`: the destination can be opened (and made).  48 is `PBAT_UNABLE_COPY`. -/
def copyFile (opens : Bool) (es : List IoEv) (f : Disk) (src dst : List Char) : Option (Disk × Int) :=
  if (f src).isNone then some (f, -1)
  else if opens = false then some (f, 48)
  else copyBytes src dst false 48 es (f.set dst []) 0 0 none

/-- `pBat_CatFile`, pbat/command/pBat_Copy.c:598-700.  `second`: the flag `PBAT_COPY_CAT_2ND`, whose value afterwards is given last.  58 is
`PBAT_UNABLE_CAT`. -/
def catFile (opens : Bool) (es : List IoEv) (f : Disk) (src dst : List Char) (second : Bool) : Option (Disk × Int × Bool) :=
  if (f src).isNone then some (f, 58, second)
  else if opens = false then some (f, 58, true)
  else (copyBytes src dst second 58 es (f.set dst (if second then (f dst).getD [] else [])) 0 0 none).map fun r => (r.1, r.2, true)

/-- `pBat_MoveFile`, pbat/command/pBat_Copy.c:491-505.  `removes`, `renames`: the system allows it.  47 is `PBAT_UNABLE_MOVE`. -/
def moveFile (removes renames : Bool) (f : Disk) (src dst : List Char) : Disk × Int :=
  let r := if (f dst).isSome then (if removes then (some fun q => if q = dst then none else f q) else none) else some f
  match r with
  | none => (f, 47)
  | some f1 =>
    match f1 src with
    | none => (f1, 47)
    | some x => if renames then (fun q => if q = dst then some x else if q = src then none else f1 q, 0) else (f1, 47)

end PBat
