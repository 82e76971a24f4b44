/-
Model of `pbat/core/pBat_EsCache.c`: the cache of temporary strings of an interpreter.

Simplifications: a string is its text and its capacity (the buffer itself is the subject of `Model/Estr`); `BIT(31)`, which
shifts a signed 1 into the sign bit, has the value every compiler gives it; strings made by `pBat_EsInit` when the pool is
exhausted are numbered in the order of their creation, `pBat_EsInit` ends the program when it fails.
-/
namespace PBat

/-- An `ESTR` (`none`: its buffer could not be allocated). -/
structure CachedStr where
  text : Option (List Char)
  cap : Nat
  deriving DecidableEq, Repr

/-- A pointer to an `ESTR`: an element of `lpesPool` or a string allocated apart. -/
inductive StrPtr where
  | pool (i : Nat)
  | heap (i : Nat)
  deriving DecidableEq, Repr

/-- `ESTRCACHE` (pbat/core/pBat_EsCache.h:30-33), and the strings allocated apart: `made` of them so far. -/
structure Cache where
  status : List (BitVec 32)
  pool : Nat → CachedStr
  heap : Nat → CachedStr
  made : Nat

/-- `ESTR_CACHE_SIZE`, pbat/core/pBat_EsCache.h:28. -/
def cacheSize : Nat := 128

/-- `DEFAULT_ESTR_SIZE`, pbat/core/pBat_EsCache.c:28. -/
def defaultCap : Nat := 256

/-- `STATUS_ON`, pbat/core/pBat_EsCache.c:35. -/
def statusOn (st : List (BitVec 32)) (x : Nat) : List (BitVec 32) := st.modify (x / 32) (· ||| (1#32 <<< (x % 32)))

/-- `STATUS_OFF`, pbat/core/pBat_EsCache.c:36. -/
def statusOff (st : List (BitVec 32)) (x : Nat) : List (BitVec 32) := st.modify (x / 32) (· &&& ~~~(1#32 <<< (x % 32)))

/-- Assignment to an element. -/
def setStr (f : Nat → CachedStr) (i : Nat) (v : CachedStr) : Nat → CachedStr := fun j => if j = i then v else f j

/-- The second loop of `pBat_EsCacheBuild`, pbat/core/pBat_EsCache.c:45-60; `al i` tells whether the `i`-th `malloc` succeeds.  `n` elements
are left.  The capacity of a string without buffer is left undetermined by the code; 0 here. -/
def buildLoop (al : Nat → Bool) : Nat → Nat → Cache → Cache
  | 0, _, c => c
  | n + 1, i, c =>
    if al i then
      buildLoop al n (i + 1) { c with pool := setStr c.pool i ⟨some [], defaultCap⟩, status := statusOff c.status i }
    else buildLoop al n (i + 1) { c with pool := setStr c.pool i ⟨none, 0⟩ }

/-- `pBat_EsCacheBuild`, pbat/core/pBat_EsCache.c:38-61. -/
def cacheBuild (al : Nat → Bool) : Cache :=
  buildLoop al cacheSize 0
    { status := List.replicate (cacheSize / 32) (BitVec.allOnes 32), pool := fun _ => ⟨none, 0⟩, heap := fun _ => ⟨none, 0⟩, made := 0 }

/-- The inner loop of `pBat_EsCacheInit`, pbat/core/pBat_EsCache.c:83-93: `n` bits are left. -/
def scanWord : Nat → Nat → BitVec 32 → Option Nat
  | 0, _, _ => none
  | n + 1, j, s => if s &&& 1#32 = 0#32 then some j else scanWord n (j + 1) (s >>> 1)

/-- The outer loop of `pBat_EsCacheInit`, pbat/core/pBat_EsCache.c:77-95: the index of the string found. -/
def scanStatus (i : Nat) : List (BitVec 32) → Option Nat
  | [] => none
  | w :: ws =>
    if w ≠ BitVec.allOnes 32 then
      match scanWord 32 0 w with
      | some j => some (i * 32 + j)
      | none => scanStatus (i + 1) ws
    else scanStatus (i + 1) ws

/-- `pBat_EsCacheInit`, pbat/core/pBat_EsCache.c:74-99. -/
def cacheAcquire (c : Cache) : StrPtr × Cache :=
  match scanStatus 0 c.status with
  | some x => (.pool x, { c with status := statusOn c.status x })
  | none => (.heap c.made, { c with heap := setStr c.heap c.made ⟨some [], defaultCap⟩, made := c.made + 1 })

/-- `pBat_EsCacheFree`, pbat/core/pBat_EsCache.c:101-129; `re` tells whether the `realloc` succeeds. -/
def cacheRelease (re : Bool) (c : Cache) (p : StrPtr) : Cache :=
  match p with
  | .pool x =>
    let s := c.pool x
    let s := if s.cap ≠ defaultCap then (if re then { s with cap := defaultCap } else s) else s
    let s := if s.cap > 0 then { s with text := s.text.map (fun _ => []) } else s
    { c with status := statusOff c.status x, pool := setStr c.pool x s }
  | .heap i => { c with heap := setStr c.heap i ⟨none, 0⟩ }

/-- What a user of a string does to it: give it some text in a buffer of some capacity (see `Model/Estr`). -/
def cacheWrite (c : Cache) (p : StrPtr) (t : List Char) (cap : Nat) : Cache :=
  match p with
  | .pool x => { c with pool := setStr c.pool x ⟨some t, cap⟩ }
  | .heap i => { c with heap := setStr c.heap i ⟨some t, cap⟩ }

/-- The string a pointer designates. -/
def Cache.get (c : Cache) : StrPtr → CachedStr
  | .pool x => c.pool x
  | .heap i => c.heap i

end PBat
