/-
Model of `libpbat/dir/pBat_Attr.c`: attribute filters.
-/
namespace PBat

/-- The result of `stat` read by the filters: the tests `pBat_GetFileMode(f) & PBAT_FILE_...` (libpbat/libpBat.h:59-65 and 94-104; on Unix
the archive, hidden and system tests are constantly false, and the read-only test of pBat_Attr.c:117 is "the owner may read and not write"),
and the size. -/
structure FileStat where
  archive : Bool
  hidden : Bool
  system : Bool
  dir : Bool
  readonly : Bool
  size : Nat
  deriving DecidableEq, Repr

/-- The flag chosen by the `switch` of `pBat_MakeFileAttributes`, libpbat/dir/pBat_Attr.c:30-53 with the values of libpbat/libpBat.h:437-448. -/
def attrFlag (c : Char) : BitVec 16 :=
  if c.toUpper = 'I' then 0x04#16
  else if c.toUpper = 'A' then 0x100#16
  else if c.toUpper = 'R' then 0x01#16
  else if c.toUpper = 'H' then 0x10#16
  else if c.toUpper = 'S' then 0x40#16
  else if c.toUpper = 'D' then 0x400#16
  else 0#16

/-- The loop of `pBat_MakeFileAttributes`, libpbat/dir/pBat_Attr.c:29-60: `neg` is `bNeg`, `attr` is `wAttr`. -/
def makeAttrLoop (neg : Bool) (attr : BitVec 16) : List Char → BitVec 16
  | [] => attr
  | c :: s =>
    let neg := if c.toUpper = '-' then true else neg
    let flag := attrFlag c
    if neg = true ∧ flag ≠ 0#16 then makeAttrLoop false (attr ||| (flag ||| (flag <<< 1))) s
    else makeAttrLoop neg (attr ||| flag) s

/-- `pBat_MakeFileAttributes`, libpbat/dir/pBat_Attr.c:24-62. -/
def makeFileAttributes (s : List Char) : BitVec 16 := makeAttrLoop false 0#16 s

/-- `wAttr & FLAG` as a condition. -/
def hasFlag (attr flag : BitVec 16) : Bool := attr &&& flag != 0#16

/-- One test of `pBat_CheckFileAttributes`: `iResult` negated if the flag `negFlag` is set, and `1` if `flag` is not set. -/
def attrTest (attr flag negFlag : BitVec 16) (result : Bool) : Bool :=
  if hasFlag attr flag then (if hasFlag attr negFlag then !result else result) else true

/-- `pBat_CheckFileAttributes`, libpbat/dir/pBat_Attr.c:64-125. -/
def checkFileAttributes (attr : BitVec 16) (f : FileStat) : Bool :=
  if attr = 0#16 then true
  else
    attrTest attr 0x100#16 0x200#16 f.archive &&
    attrTest attr 0x10#16 0x20#16 f.hidden &&
    attrTest attr 0x40#16 0x20#16 f.system &&
    attrTest attr 0x04#16 0x20#16 (f.size == 0) &&
    attrTest attr 0x400#16 0x800#16 f.dir &&
    attrTest attr 0x01#16 0x02#16 f.readonly

/-- The variables of `pBat_AttributesSplitFileList`: the field `lpflNext` of every cell, `pIn`, `pMatch`, `pUnMatch`, `*pSelected` and `*pRemaining`. -/
structure SplitState where
  next : Nat → Option Nat
  inp : Option Nat
  mat : Option Nat
  unm : Option Nat
  sel : Option Nat
  rem : Option Nat

/-- Assignment to a field `lpflNext`. -/
def setNext (next : Nat → Option Nat) (p : Nat) (v : Option Nat) : Nat → Option Nat := fun q => if q = p then v else next q

/-- One turn of the loop, libpbat/dir/pBat_Attr.c:141-176; `ok` is the result of `pBat_CheckFileAttributes` on each cell. -/
def splitStep (ok : Nat → Bool) (s : SplitState) : SplitState :=
  match s.inp with
  | none => s
  | some p =>
    let s :=
      if ok p then
        match s.mat with
        | none => { s with mat := some p, sel := some p }
        | some m => { s with next := setNext s.next m (some p), mat := some p }
      else
        match s.unm with
        | none => { s with unm := some p, rem := some p }
        | some m => { s with next := setNext s.next m (some p), unm := some p }
    { s with inp := s.next p }

/-- `n` turns of the loop. -/
def splitRun (ok : Nat → Bool) : Nat → SplitState → SplitState
  | 0, s => s
  | n + 1, s => splitRun ok n (splitStep ok s)

/-- The end of `pBat_AttributesSplitFileList`, libpbat/dir/pBat_Attr.c:178-182: the two lists are terminated. -/
def splitFinish (s : SplitState) : SplitState :=
  let s := match s.mat with
    | none => s
    | some m => { s with next := setNext s.next m none }
  match s.unm with
  | none => s
  | some m => { s with next := setNext s.next m none }

/-- The beginning of `pBat_AttributesSplitFileList`, libpbat/dir/pBat_Attr.c:130-139. -/
def splitInit (next : Nat → Option Nat) (inp : Option Nat) : SplitState :=
  { next := next, inp := inp, mat := none, unm := none, sel := none, rem := none }

end PBat
