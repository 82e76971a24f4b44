import Verif.Model.Args
/-
Model of TYPE, `pbat/command/pBat_Type.c`.

Simplifications: a parameter stands for the list of the names `pBat_GetMatchFileList` returns for its full path, in order (C55);
`pBat_AttributesSplitFileList` keeps the files that are not directories, in order (C34); opening a file gives its bytes or fails;
messages of error are not part of the output.
-/
namespace PBat

/-- `pBat_TypeFileF` and the loop of `pBat_TypeFile`, pbat/command/pBat_Type.c:53-63 and 81-82. -/
def typeChunks (s : List Char) : List Char :=
  if s.length = 0 then []
  else s.take 1024 ++ typeChunks (s.drop 1024)
termination_by s.length
decreasing_by simp only [List.length_drop]; omega

/-- The disk as TYPE sees it. -/
structure TypeDisk where
  find : List Char → List (List Char)
  isDir : List Char → Bool
  bytes : List Char → Option (List Char)

/-- What TYPE leaves: the standard output, the standard error output (messages of error apart) and the status. -/
structure TypeOut where
  out : List Char
  err : List Char
  status : Nat
  deriving DecidableEq, Repr

/-- `pBat_TypeFile`, pbat/command/pBat_Type.c:65-87: what is written and the status. -/
def typeFile (d : TypeDisk) (f : List Char) : List Char × Nat :=
  match d.bytes f with
  | none => ([], 1)
  | some s => (typeChunks s, 0)

/-- The lists of files, pbat/command/pBat_Type.c:144-147: `pEnd` stays at the first cell of the first list, the `lpflNext` of which is
replaced. -/
def typeCat (acc new : List (List Char)) : List (List Char) :=
  match acc with
  | [] => new
  | h :: _ => h :: new

/-- How the loop over the parameters ends. -/
inductive TypeArgs where
  | help
  | noMatch
  | files (l : List (List Char))

/-- The loop over the parameters, pbat/command/pBat_Type.c:120-151. -/
def typeArgs (d : TypeDisk) (acc : List (List Char)) : List (List Char) → TypeArgs
  | [] => .files acc
  | p :: ps =>
    if p = "/?".toList then .help
    else if d.find p = [] then .noMatch
    else typeArgs d (typeCat acc (d.find p)) ps

/-- The line before each file, pbat/command/pBat_Type.c:198. -/
def typeHeader (f : List Char) : List Char := "---------- ".toList ++ f ++ ['\n']

/-- The loop over several files, pbat/command/pBat_Type.c:196-203. -/
def typeSeveral (d : TypeDisk) : List (List Char) → List Char × Nat
  | [] => ([], 0)
  | f :: fs =>
    let r := typeFile d f
    let s := typeSeveral d fs
    (typeHeader f ++ r.1 ++ s.1, r.2 ||| s.2)

/-- The end of TYPE, pbat/command/pBat_Type.c:159-205. -/
def typeFiles (d : TypeDisk) (l : List (List Char)) : TypeOut :=
  match l.filter (fun f => !d.isDir f) with
  | [] => ⟨[], [], 43⟩
  | [f] => ⟨(typeFile d f).1, [], (typeFile d f).2⟩
  | fs => ⟨(typeSeveral d fs).1, [], (typeSeveral d fs).2⟩

/-- `pBat_CmdType`, pbat/command/pBat_Type.c:89-225; `line` is the text after `TYPE`, `input` what is left of the standard input. -/
def cmdType (ex : List Char → Res (List Char)) (help : List Char) (d : TypeDisk) (line input : List Char) : Res TypeOut := do
  let ps ← allParams stdDelims ex line
  .ok (match typeArgs d [] ps with
    | .help => ⟨help, [], 0⟩
    | .noMatch => ⟨[], [], 42⟩
    | .files [] => ⟨typeChunks input, [], 0⟩
    | .files l => typeFiles d l)

end PBat
