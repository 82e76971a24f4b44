import Verif.Model.Env
/-
Specification of the environment: a map from names, taken up to ASCII case, to values.
-/
namespace PBat.Spec

/-- Blank characters. -/
def blank (c : Char) : Bool := c == ' ' || c == '\t'

/-- Names up to ASCII case. -/
def fold (n : List Char) : List Char := n.map Char.toLower

/-- A name without its trailing blanks; a name made of blanks only stays as it is. -/
def trim (n : List Char) : List Char :=
  let t := (n.reverse.dropWhile blank).reverse
  if t = [] then n else t

/-- The name without trailing blanks, up to case: what the documentation identifies. -/
def key (n : List Char) : List Char := fold (trim n)

/-- An environment: values by folded name. -/
abbrev Map := List Char → Option (List Char)

/-- Changing one entry. -/
def Map.put (M : Map) (k : List Char) (v : Option (List Char)) : Map := fun x => if x = k then v else M x

/-- A value, or nothing for the empty text. -/
def value (c : List Char) : Option (List Char) := if c = [] then none else some c

/-- The claim: names are identified by `key` in every operation. -/
def runMap : Map → List EnvOp → List (Option (List Char))
  | _, [] => []
  | M, .set n c _ _ :: ops => runMap (M.put (key n.txt) (value c)) ops
  | M, .unset n :: ops => runMap (M.put (key n.txt) none) ops
  | M, .get n :: ops => M (key n.txt) :: runMap M ops

/-- What the code does: only a set to a non-empty value trims the name. -/
def runMapExact : Map → List EnvOp → List (Option (List Char))
  | _, [] => []
  | M, .set n c _ _ :: ops =>
    runMapExact (if c = [] then M.put (fold n.txt) none else M.put (fold (trim n.txt)) (some c)) ops
  | M, .unset n :: ops => runMapExact (M.put (fold n.txt) none) ops
  | M, .get n :: ops => M (fold n.txt) :: runMapExact M ops

/-- Splitting an inherited string `NAME=VALUE` at its first `=`; blanks at the end of the value are lost. -/
def initName (s : List Char) : List Char := s.takeWhile (· ≠ '=')
/-- Value of an inherited string. -/
def initValue (s : List Char) : List Char :=
  ((s.dropWhile (· ≠ '=')).drop 1).reverse.dropWhile blank |>.reverse

/-- The map inherited from the parent process. -/
def initMap (env : List (List Char)) : Map := fun k =>
  (env.find? fun s => fold (initName s) = k).map initValue

/-- All name pointers lie in the same half of the 32 bit address space. -/
def SameSide (pos : Bool) (a : Int) : Prop := if pos then 0 < a else a < 0

/-- The pointers an operation brings in. -/
def OpSide (pos : Bool) : EnvOp → Prop
  | .set n _ cpy _ => SameSide pos n.addr ∧ SameSide pos cpy
  | .unset n => SameSide pos n.addr
  | .get n => SameSide pos n.addr

/-- No trailing blank where the code does not trim. -/
def OpTrimmed : EnvOp → Prop
  | .set n c _ _ => c = [] → trim n.txt = n.txt
  | .unset n => trim n.txt = n.txt
  | .get n => trim n.txt = n.txt

instance (pos : Bool) (a : Int) : Decidable (SameSide pos a) := by unfold SameSide; infer_instance
instance (pos : Bool) (o : EnvOp) : Decidable (OpSide pos o) := by cases o <;> unfold OpSide <;> infer_instance
instance (o : EnvOp) : Decidable (OpTrimmed o) := by cases o <;> unfold OpTrimmed <;> infer_instance

end PBat.Spec
