import Verif.Model.Assign
/-!
# Objects of the same class, and the transformations of a chain

`x = y` only compiles if `x` and `y` belong to the same class. There is one class per kind of match, one per
kind of value test and one per kind of transformation.
-/

namespace Hext

/-- The class of a match. -/
inductive MatchClass
  | attributeMatch | attributeCountMatch | childCountMatch | functionMatch | functionValueMatch | negateMatch
  | nthChildMatch | onlyChildMatch | typeRegexMatch

def Match.cls : Match → MatchClass
  | .attribute .. => .attributeMatch
  | .attributeCount .. => .attributeCountMatch
  | .childCount .. => .childCountMatch
  | .function .. => .functionMatch
  | .functionValue .. => .functionValueMatch
  | .negate .. => .negateMatch
  | .nthChild .. => .nthChildMatch
  | .onlyChild .. => .onlyChildMatch
  | .typeRegex .. => .typeRegexMatch

/-- The class of a value test. -/
inductive TestClass
  | beginsWithTest | containsTest | containsWordsTest | endsWithTest | equalsTest | regexTest | negateTest

def ValueTest.cls : ValueTest → TestClass
  | .beginsWith .. => .beginsWithTest
  | .contains .. => .containsTest
  | .containsWords .. => .containsWordsTest
  | .endsWith .. => .endsWithTest
  | .equals .. => .equalsTest
  | .regex .. => .regexTest
  | .negateNull | .negate .. => .negateTest

/-- The class of a transformation. -/
inductive TransformClass
  | appendPipe | casePipe | collapseWsPipe | prependPipe | regexPipe | regexReplacePipe | trimPipe

def Transform.cls : Transform → TransformClass
  | .append .. => .appendPipe
  | .toLower | .toUpper => .casePipe
  | .collapseWs => .collapseWsPipe
  | .prepend .. => .prependPipe
  | .regex .. => .regexPipe
  | .regexReplace .. => .regexReplacePipe
  | .trim .. => .trimPipe

/-- The class of a capture. -/
inductive CaptureClass
  | attributeCapture | functionCapture

def Capture.cls : Capture → CaptureClass
  | .attribute .. => .attributeCapture
  | .function .. => .functionCapture

/-- The transformations of a capture, if it has any. -/
def Capture.pipe : Capture → Option Pipe
  | .attribute _ _ p => p
  | .function _ _ p => p

/-- The transformations of a chain. -/
def Pipe.list : Pipe → List Transform
  | .last t => [t]
  | .cons t p => t :: p.list

end Hext
