/-!
Specification of comment stripping: comments are replaced by the newlines they contain. String literals are not
treated, as the docstring of `clean_code` announces.
-/

namespace Verif.Spec

/-- Where the reader is. -/
inductive Mode where
  | code
  | line
  | block
deriving DecidableEq

/-- The text without comments. -/
def stripC : Mode → List Char → List Char
  | .code, '/' :: '/' :: r => stripC .line r
  | .code, '/' :: '*' :: r => stripC .block r
  | .code, c :: r => c :: stripC .code r
  | .line, '\n' :: r => '\n' :: stripC .code r
  | .line, _ :: r => stripC .line r
  | .block, '*' :: '/' :: r => stripC .code r
  | .block, '\n' :: r => '\n' :: stripC .block r
  | .block, _ :: r => stripC .block r
  | _, [] => []

/-- Where the reader is at the end. -/
def endMode : Mode → List Char → Mode
  | .code, '/' :: '/' :: r => endMode .line r
  | .code, '/' :: '*' :: r => endMode .block r
  | .code, _ :: r => endMode .code r
  | .line, '\n' :: r => endMode .code r
  | .line, _ :: r => endMode .line r
  | .block, '*' :: '/' :: r => endMode .code r
  | .block, '\n' :: r => endMode .block r
  | .block, _ :: r => endMode .block r
  | m, [] => m

end Verif.Spec
