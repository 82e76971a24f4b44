import Verif.Model.Num
import Verif.Model.Attr
import Verif.Model.Dir
/-
Model of `pbat/command/pBat_Wc.c`.

Simplifications: `read` is described by the list of its results (`none` is an error, the end of the list or an empty read is the end of the
file); the search of files is an arbitrary function; help texts and error messages are not part of the output.
-/
namespace PBat

/-- `struct wc_count_t`, pbat/command/pBat_Wc.h:25-30. -/
structure Counts where
  lines : BitVec 64
  words : BitVec 64
  bytes : BitVec 64
  chars : BitVec 64
  deriving DecidableEq, Repr

/-- The characters of the `switch` ending a word, pbat/command/pBat_Wc.c:113-136. -/
def endsWord (c : Char) : Bool := c == '\n' || c == ' ' || c == '\t' || c == '\r' || c == ',' || c == '.' || c == ';'

/-- One character, pbat/command/pBat_Wc.c:104-142; `utf8` is the condition of the `#if`, the state is `inword` and the counts. -/
def wcChar (utf8 : Bool) (st : Bool × Counts) (c : Char) : Bool × Counts :=
  let n := st.2
  let n := if !utf8 || c.toNat < 0x80 || 0xC0 ≤ c.toNat then { n with chars := n.chars + 1 } else n
  let n := if c == '\n' then { n with lines := n.lines + 1 } else n
  if endsWord c then
    if st.1 then (false, { n with words := n.words + 1 }) else (false, n)
  else (true, n)

/-- The reading loop, pbat/command/pBat_Wc.c:93-146. -/
def wcLoop (utf8 : Bool) (st : Bool × Counts) : List (Option (List Char)) → Counts
  | [] => st.2
  | none :: _ => st.2
  | some [] :: _ => st.2
  | some (c :: s) :: rest =>
    let n := { st.2 with bytes := st.2.bytes + BitVec.ofNat 64 (c :: s).length }
    wcLoop utf8 ((c :: s).foldl (wcChar utf8) (st.1, n)) rest

/-- `pBat_FileCounts`, pbat/command/pBat_Wc.c:65-157, once the file is open: the counts; it returns 0. -/
def fileCounts (utf8 : Bool) (reads : List (Option (List Char))) : Counts := wcLoop utf8 (false, ⟨0, 0, 0, 0⟩) reads

/-- `pBat_AddCounts`, pbat/command/pBat_Wc.c:159-165. -/
def addCounts (a b : Counts) : Counts := ⟨a.lines + b.lines, a.words + b.words, a.bytes + b.bytes, a.chars + b.chars⟩

/-- The mode: which counts are asked (pbat/command/pBat_Wc.h:34-37). -/
structure WcMode where
  lines : Bool
  chars : Bool
  bytes : Bool
  words : Bool
  deriving DecidableEq, Repr

/-- `"%lu "`. -/
def wcNumber (b : Bool) (n : BitVec 64) : List Char := if b then natText n.toNat ++ [' '] else []

/-- `pBat_PrintCounts`, pbat/command/pBat_Wc.c:167-187: the line printed, without its end. -/
def printCounts (m : WcMode) (n : Counts) (file : List Char) : List Char :=
  wcNumber m.lines n.lines ++ wcNumber m.words n.words ++ wcNumber m.bytes n.bytes ++ wcNumber m.chars n.chars ++ file

/-- A file found: its full name, what `stat` says, and what reading it gives (`none` if it cannot be opened). -/
structure WcFile where
  name : List Char
  stat : FileStat
  reads : Option (List (Option (List Char)))

/-- The parameters, pbat/command/pBat_Wc.c:206-294 (`PBAT_ATTR_NO_DIR` is libpbat/libpBat.h:452): `none` for help or an error, else the mode and the files with the length of the prefix
that is not displayed.  `search` is `pBat_GetMatchFileList` applied to the full path. -/
def wcParams (search : List Char → List WcFile) (cur : List Char) (mode : WcMode) (files : List (WcFile × Nat)) :
    List (List Char) → Option (WcMode × List (WcFile × Nat))
  | [] => some (mode, files)
  | ['/', c] :: ps =>
    if c = 'L' ∨ c = 'l' then wcParams search cur { mode with lines := true } files ps
    else if c = 'C' ∨ c = 'c' then wcParams search cur { mode with bytes := true } files ps
    else if c = 'M' ∨ c = 'm' then wcParams search cur { mode with chars := true } files ps
    else if c = 'W' ∨ c = 'w' then wcParams search cur { mode with words := true } files ps
    else none
  | p :: ps =>
    let size := if absolute p then 0 else cur.length + 1
    let full := if absolute p then p else cur ++ '/' :: p
    let item := (search full).filter (fun f => checkFileAttributes 0xC00#16 f.stat)
    if item = [] then none else wcParams search cur mode (files ++ item.map (·, size)) ps

/-- The loop on the files, pbat/command/pBat_Wc.c:307-338: the lines printed and the total. -/
def wcFiles (utf8 : Bool) (mode : WcMode) : List (WcFile × Nat) → Counts → List (List Char) × Counts
  | [], total => ([], total)
  | (f, size) :: fs, total =>
    if mode = ⟨false, false, true, false⟩ then
      let total := { total with bytes := total.bytes + BitVec.ofNat 64 f.stat.size }
      let r := wcFiles utf8 mode fs total
      ((natText (BitVec.ofNat 64 f.stat.size).toNat ++ ' ' :: f.name.drop size) :: r.1, r.2)
    else
      match f.reads with
      | none => wcFiles utf8 mode fs total
      | some reads =>
        let n := fileCounts utf8 reads
        let r := wcFiles utf8 mode fs (addCounts total n)
        (printCounts mode n (f.name.drop size) :: r.1, r.2)

/-- `pBat_CmdWc`, pbat/command/pBat_Wc.c:189-354: the lines printed, given the parameters and what reading the standard input gives. -/
def cmdWc (utf8 : Bool) (search : List Char → List WcFile) (cur : List Char) (stdin : List (Option (List Char)))
    (params : List (List Char)) : List (List Char) :=
  match wcParams search cur ⟨false, false, false, false⟩ [] params with
  | none => []
  | some (mode, files) =>
    let first := if files = [] then [printCounts mode (fileCounts utf8 stdin) []] else []
    let mode := if mode = ⟨false, false, false, false⟩ then ⟨false, false, true, false⟩ else mode
    let r := wcFiles utf8 mode files ⟨0, 0, 0, 0⟩
    first ++ r.1 ++ (if files.length > 1 then [printCounts mode r.2 "Total".toList] else [])

end PBat
