import Verif.Model.Help
/-
The commands a text of help is about: those its "Usage:" lines name (pbat/lang/pBat_ShowHelp.c).
-/
namespace PBat.Spec.Help
open PBat.Help

def about : Topic → List String
  | .def_ => ["DEF"]
  | .cd => ["CD", "CHDIR"]
  | .cls => ["CLS"]
  | .color => ["COLOR"]
  | .copy => ["COPY"]
  | .call => ["CALL"]
  | .del => ["DEL", "ERASE"]
  | .dir => ["DIR"]
  | .echo => ["ECHO"]
  | .for_ => ["FOR"]
  | .goto => ["GOTO"]
  | .if_ => ["IF"]
  | .md => ["MD", "MKDIR"]
  | .pause => ["PAUSE"]
  | .rd => ["RMDIR", "RD"]
  | .ren => ["REN", "RENAME"]
  | .rem => ["REM"]
  | .set => ["SET"]
  | .setlocal => ["SETLOCAL"]
  | .endlocal => ["ENDLOCAL"]
  | .title => ["TITLE"]
  | .type => ["TYPE"]
  | .exit => ["EXIT"]
  | .shift => ["SHIFT"]
  | .find => ["FIND"]
  | .more => ["MORE"]
  | .break_ => ["BREAK"]
  | .chcp => ["CHCP"]
  | .pushd => ["PUSHD"]
  | .popd => ["POPD"]
  | .wc => ["WC"]
  | .xargs => ["XARGS"]
  | .prompt => ["PROMPT"]
  | .pecho => ["PECHO"]
  | .timeout => ["TIMEOUT"]
  | .mod => ["MOD"]
  | .ver => ["VER"]
  | .locale => ["LOCALE"]
  | .start => ["START"]

/-- A text with its ends of lines written as `nl`. -/
def shown (nl : List Char) (t : List Char) : List Char := t.flatMap fun c => if c = '\n' then nl else [c]

/-- The commands for which help is asked in vain. -/
def silent : List String := ["REM", "REN", "RENAME", "MOVE", "CHCP"]

end PBat.Spec.Help
