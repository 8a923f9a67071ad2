import Verif.Syntax.Lists
/-
What the texts of each rule of the accepted language can start with.
-/
namespace Umka.Syntax
open Spec Spec.EBNF

/-- The rules that derive the empty text. -/
def nl : NT → Bool
  | .program | .module_ | .decls | .exportMark | .stmt | .closedStmt | .stmtList | .closedList => true
  | _ => false

def declStart : List Tok := [.kType, .kConst, .kVar, .ident, .kFn]
def typeStart : List Tok := [.ident, .caret, .kWeak, .lbracket, .kEnum, .kMap, .kStruct, .kInterface, .kFn]
def closedStart : List Tok :=
  [.kType, .kConst, .kVar, .lbrace, .ident, .place, .call, .val, .kIf, .kSwitch, .kFor, .kBreak, .kContinue, .kReturn]

/-- The tokens the texts of a rule start with. -/
def fs : NT → List Tok
  | .program | .module_ => .kImport :: declStart
  | .import_ => [.kImport]
  | .importItem => [.ident, .str]
  | .decls | .decl => declStart
  | .typeDecl => [.kType]
  | .constDecl => [.kConst]
  | .varDecl => [.kVar, .ident]
  | .fullVarDecl => [.kVar]
  | .fnDecl | .closureType => [.kFn]
  | .rcvSignature | .signature => [.lpar]
  | .exportMark => [.mul]
  | .type_ | .caseType => typeStart
  | .ptrType => [.kWeak, .caret]
  | .arrayType | .dynArrayType => [.lbracket]
  | .enumType => [.kEnum]
  | .mapType => [.kMap]
  | .structType => [.kStruct]
  | .interfaceType => [.kInterface]
  | .block | .fnBlock => [.lbrace]
  | .stmtList | .closedList => .semi :: closedStart
  | .stmt | .closedStmt => closedStart
  | .simpleStmt | .incDecStmt | .designator => designators
  | .singleAssgnStmt | .listAssgnStmt | .assignmentStmt | .shortAssignmentStmt | .designatorList => places
  | .callStmt => [.call]
  | .ifStmt => [.kIf]
  | .switchStmt | .exprSwitchStmt | .typeSwitchStmt => [.kSwitch]
  | .exprCase | .typeCase | .lastExprCase | .lastTypeCase => [.kCase]
  | .default_ => [.kDefault]
  | .forStmt => [.kFor]
  | .forHeader => exprs
  | .breakStmt => [.kBreak]
  | .continueStmt => [.kContinue]
  | .returnStmt => [.kReturn]
  | .exprList | .expr => exprs
  | _ => [.ident]

theorem tables : Tables accepted nl fs := by
  intro n
  cases n <;> decide

end Umka.Syntax
