import Verif.Model.LibC
/-
Model of wildcard matching, `libpbat/dir/pBat_Dir.c` and `libpbat/enc/pBat_Enc.c`.  Characters of the texts are bytes; `utf8` is
`_pBat_TextMode == PBAT_UTF8_ENCODING`.  `ci` selects between `pBat_RegExpMatch` and `pBat_RegExpCaseMatch`, whose texts differ
in the comparisons only; `toupper` changes ASCII letters only.
-/
namespace PBat

/-- `_pBat_IsFollowingByte`, libpbat/enc/pBat_Enc.c:29-40. -/
def followingByte (c : Char) : Bool := 0x80 ≤ c.toNat && c.toNat < 0xC0

/-- `pBat_GetNextChar`, libpbat/enc/pBat_Enc.c:42-70 (the text is not empty). -/
def nextChar (utf8 : Bool) : List Char → List Char
  | [] => []
  | c :: r => if utf8 && 0x80 ≤ c.toNat then r.dropWhile followingByte else r

/-- `==`, or equality after `toupper`. -/
def sameChar (ci : Bool) (c d : Char) : Bool := if ci then c.toUpper == d.toUpper else c == d

/-- The inner loop of `pBat_SeekPattern`, libpbat/dir/pBat_Dir.c:599-604. -/
def hasPrefix (ci : Bool) : List Char → List Char → Bool
  | [], _ => true
  | _ :: _, [] => false
  | c :: p, d :: m => sameChar ci d c && hasPrefix ci p m

/-- `pBat_SeekPattern`, `pBat_SeekCasePattern`, libpbat/dir/pBat_Dir.c:588-613, 709-731. -/
def seekPattern (ci : Bool) (pat : List Char) : List Char → Option (List Char)
  | [] => none
  | d :: m => if hasPrefix ci pat (d :: m) then some (d :: m) else seekPattern ci pat m

/-- `pBat_EndWithPattern`, `pBat_EndWithCasePattern`, libpbat/dir/pBat_Dir.c:615-631, 733-750. -/
def endWith (ci : Bool) (m pat : List Char) : Bool :=
  if m.length < pat.length then false
  else if ci then stricmp (m.drop (m.length - pat.length)) pat == 0
  else strcmp (m.drop (m.length - pat.length)) pat == 0

/-- `*` or `?`. -/
def isWild (c : Char) : Bool := c == '*' || c == '?'

/-- `pBat_RegExpMatch`, `pBat_RegExpCaseMatch`, libpbat/dir/pBat_Dir.c:633-707, 752-826. -/
def wildMatch (ci utf8 : Bool) (re m : List Char) : Bool :=
  match re, m with
  | [], m => m == []
  | _ :: _, [] => false
  | c :: r, d :: m =>
    if c = '?' then wildMatch ci utf8 r (nextChar utf8 (d :: m))
    else if c = '*' then
      let r' := r.dropWhile isWild
      if r' = [] then true
      else
        let lit := r'.takeWhile (!isWild ·)
        if r'.dropWhile (!isWild ·) ≠ [] then
          match seekPattern ci lit (d :: m) with
          | some m' => wildMatch ci utf8 (r'.dropWhile (!isWild ·)) (m'.drop lit.length)
          | none => false
        else endWith ci (d :: m) r'
    else if sameChar ci c d then wildMatch ci utf8 (nextChar utf8 (c :: r)) (nextChar utf8 (d :: m))
    else false
termination_by re.length
decreasing_by
  · simp
  · have h1 := (List.dropWhile_sublist (l := r.dropWhile isWild) (!isWild ·)).length_le
    have h2 := (List.dropWhile_sublist (l := r) isWild).length_le
    simp only [List.length_cons]
    omega
  · simp only [nextChar]
    split
    · have := (List.dropWhile_sublist (l := r) followingByte).length_le
      simp only [List.length_cons]; omega
    · simp

end PBat
