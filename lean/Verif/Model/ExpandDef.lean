import Verif.Model.Args
import Verif.Model.Replace
/-
Model of `pbat/core/pBat_ExpandDef.c`, on texts that fit in memory (C01, C02).
-/
namespace PBat

/-- `pBat_EsReplace` on texts. -/
def macroReplace (pat rep s : List Char) : Res (List Char) := do
  let ps ← replacePieces pat rep s
  pure ps.flatten

/-- The loop of `pBat_ExpandDef`, pbat/core/pBat_ExpandDef.c:39-48: the second characters of `var` left, `lpCh` (`none` for `NULL`) and `ret`. -/
def expandDefLoop (ex : List Char → Res (List Char)) : List Char → Option (List Char) → List Char → Res (List Char)
  | [], _, ret => .ok ret
  | v :: vs, none, ret => do
    let ret ← macroReplace ['$', v] [] ret
    expandDefLoop ex vs none ret
  | v :: vs, some ch, ret => do
    match ← nextParam stdDelims ex ch with
    | some (t, rest) =>
      let ret ← macroReplace ['$', v] t ret
      expandDefLoop ex vs (some rest) ret
    | none =>
      let ret ← macroReplace ['$', v] [] ret
      expandDefLoop ex vs none ret

/-- `pBat_ExpandDef`, pbat/core/pBat_ExpandDef.c:27-55: `'0' + i` for `i` from 1 to 10 are the digits and the colon. -/
def expandDef (ex : List Char → Res (List Char)) (ch exp : List Char) : Res (List Char) := do
  let ch := skipBlanks ch
  let ret ← macroReplace ['$', '*'] ch exp
  expandDefLoop ex ['1', '2', '3', '4', '5', '6', '7', '8', '9', ':'] (some ch) ret

end PBat
