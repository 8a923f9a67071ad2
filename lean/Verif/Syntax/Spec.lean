import Verif.Syntax.Model
/-
The grammar of the documentation (doc/lang.md:1526-1640), as data, and the texts a grammar derives.
-/
namespace Umka.Syntax.Spec
open Umka.Syntax

/-- The names of the rules. Those of the first group are the rules of the documentation. The expressions
and designators are tokens here. Those of the second group are needed for the language that is really accepted. -/
inductive NT
  | program | module_ | import_ | importItem | decls | decl
  | typeDecl | typeDeclItem | constDecl | constDeclItem
  | varDecl | fullVarDecl | varDeclItem | shortVarDecl
  | fnDecl | rcvSignature | signature | exportMark | identList | typedIdentList | typedParamList
  | type_ | ptrType | arrayType | dynArrayType | enumType | enumItem | mapType | structType | interfaceType | closureType
  | block | fnBlock | stmtList | stmt | simpleStmt
  | singleAssgnStmt | listAssgnStmt | assignmentStmt | shortAssignmentStmt
  | singleDeclAssgnStmt | listDeclAssgnStmt | declAssignmentStmt | incDecStmt | callStmt
  | ifStmt | switchStmt | exprSwitchStmt | exprCase | typeSwitchStmt | typeCase | default_
  | forStmt | forHeader | forInHeader | breakStmt | continueStmt | returnStmt
  | exprList | expr | designatorList | designator | qualIdent
  -- only in the language that is accepted
  | nextConst | names | localVarDecl | params | defaults | variadic
  | closedStmt | closedList | lastExprCase | lastTypeCase | caseType
  deriving DecidableEq

/-- The right side of a rule, in the notation of the documentation: `[e]` is `opt e`, `{e}` is `star e`. `one l` is any
token of `l`; `never` derives nothing. -/
inductive EBNF
  | tok (t : Tok)
  | one (l : List Tok)
  | nt (n : NT)
  /-- One after the other. -/
  | seq (a b : EBNF)
  /-- One of the two. -/
  | alt (a b : EBNF)
  | opt (a : EBNF)
  | star (a : EBNF)
  | never
  deriving DecidableEq

@[inherit_doc] infixr:65 " ⬝ " => EBNF.seq
@[inherit_doc] infixr:60 " ∣ " => EBNF.alt

instance : Coe Tok EBNF := ⟨.tok⟩
instance : Coe NT EBNF := ⟨.nt⟩

/-- A text (a list of tokens) is derived from the right side of a rule of the grammar. -/
inductive Derives (g : NT → EBNF) : EBNF → List Tok → Prop
  | tok {t} : Derives g (.tok t) [t]
  | one {l t} : t ∈ l → Derives g (.one l) [t]
  | nt {n ts} : Derives g (g n) ts → Derives g (.nt n) ts
  | seq {a b xs ys} : Derives g a xs → Derives g b ys → Derives g (.seq a b) (xs ++ ys)
  | left {a b ts} : Derives g a ts → Derives g (.alt a b) ts
  | right {a b ts} : Derives g b ts → Derives g (.alt a b) ts
  | optNone {a} : Derives g (.opt a) []
  | optSome {a ts} : Derives g a ts → Derives g (.opt a) ts
  | starNil {a} : Derives g (.star a) []
  | starCons {a xs ys} : Derives g a xs → Derives g (.star a) ys → Derives g (.star a) (xs ++ ys)

open EBNF Tok NT

/-- `"(" {item ";"} ")"` of the documentation. -/
abbrev group (o c : Tok) (item : EBNF) : EBNF := tok o ⬝ star (item ⬝ tok .semi) ⬝ tok c

/-- The grammar of the documentation (doc/lang.md:1526-1640), rule by rule. An expression and a designator are one token. -/
def documented : NT → EBNF
  | .program => nt .module_
  | .module_ => opt (nt .import_ ⬝ tok .semi) ⬝ nt .decls
  | .import_ => tok .kImport ⬝ (nt .importItem ∣ group .lpar .rpar (nt .importItem))
  | .importItem => opt (tok .ident ⬝ tok .eq) ⬝ tok .str
  | .decls => nt .decl ⬝ star (tok .semi ⬝ nt .decl)
  | .decl => nt .typeDecl ∣ nt .constDecl ∣ nt .varDecl ∣ nt .fnDecl
  | .typeDecl => tok .kType ⬝ (nt .typeDeclItem ∣ group .lpar .rpar (nt .typeDeclItem))
  | .typeDeclItem => tok .ident ⬝ nt .exportMark ⬝ tok .eq ⬝ nt .type_
  | .constDecl => tok .kConst ⬝ (nt .constDeclItem ∣ group .lpar .rpar (nt .constDeclItem))
  | .constDeclItem => tok .ident ⬝ nt .exportMark ⬝ tok .eq ⬝ nt .expr
  | .varDecl => nt .fullVarDecl ∣ nt .shortVarDecl
  | .fullVarDecl => tok .kVar ⬝ (nt .varDeclItem ∣ group .lpar .rpar (nt .varDeclItem))
  | .varDeclItem => nt .typedIdentList ⬝ tok .eq ⬝ nt .exprList
  | .shortVarDecl => nt .declAssignmentStmt
  | .fnDecl => tok .kFn ⬝ opt (nt .rcvSignature) ⬝ tok .ident ⬝ nt .exportMark ⬝ nt .signature ⬝ opt (nt .block)
  | .rcvSignature => tok .lpar ⬝ tok .ident ⬝ tok .colon ⬝ nt .type_ ⬝ tok .rpar
  | .signature =>
    tok .lpar ⬝
      opt (nt .typedParamList ⬝ opt (tok .eq ⬝ nt .expr) ⬝ star (tok .comma ⬝ nt .typedParamList ⬝ opt (tok .eq ⬝ nt .expr))) ⬝
      tok .rpar ⬝ opt (tok .colon ⬝ (nt .type_ ∣ tok .lpar ⬝ nt .type_ ⬝ star (tok .comma ⬝ nt .type_) ⬝ tok .rpar))
  | .exportMark => opt (tok .mul)
  | .identList => tok .ident ⬝ nt .exportMark ⬝ star (tok .comma ⬝ tok .ident ⬝ nt .exportMark)
  | .typedIdentList => nt .identList ⬝ tok .colon ⬝ nt .type_
  | .typedParamList => nt .identList ⬝ tok .colon ⬝ opt (tok .ellipsis) ⬝ nt .type_
  | .type_ =>
    nt .qualIdent ∣ nt .ptrType ∣ nt .arrayType ∣ nt .dynArrayType ∣ nt .enumType ∣ nt .mapType ∣ nt .structType ∣
      nt .interfaceType ∣ nt .closureType
  | .ptrType => opt (tok .kWeak) ⬝ tok .caret ⬝ nt .type_
  | .arrayType => tok .lbracket ⬝ nt .expr ⬝ tok .rbracket ⬝ nt .type_
  | .dynArrayType => tok .lbracket ⬝ tok .rbracket ⬝ nt .type_
  | .enumType => tok .kEnum ⬝ opt (tok .lpar ⬝ nt .type_ ⬝ tok .rpar) ⬝ group .lbrace .rbrace (nt .enumItem)
  | .enumItem => tok .ident ⬝ opt (tok .eq ⬝ nt .expr)
  | .mapType => tok .kMap ⬝ tok .lbracket ⬝ nt .type_ ⬝ tok .rbracket ⬝ nt .type_
  | .structType => tok .kStruct ⬝ group .lbrace .rbrace (nt .typedIdentList)
  | .interfaceType => tok .kInterface ⬝ group .lbrace .rbrace (tok .ident ⬝ nt .signature ∣ nt .qualIdent)
  | .closureType => tok .kFn ⬝ nt .signature
  | .block => tok .lbrace ⬝ nt .stmtList ⬝ tok .rbrace
  | .fnBlock => nt .block
  | .stmtList => nt .stmt ⬝ star (tok .semi ⬝ nt .stmt)
  | .stmt =>
    nt .decl ∣ nt .block ∣ nt .simpleStmt ∣ nt .ifStmt ∣ nt .switchStmt ∣ nt .forStmt ∣ nt .breakStmt ∣ nt .continueStmt ∣
      nt .returnStmt
  | .simpleStmt => nt .assignmentStmt ∣ nt .shortAssignmentStmt ∣ nt .incDecStmt ∣ nt .callStmt
  | .singleAssgnStmt => nt .designator ⬝ tok .eq ⬝ nt .expr
  | .listAssgnStmt => nt .designatorList ⬝ tok .eq ⬝ nt .exprList
  | .assignmentStmt => nt .singleAssgnStmt ∣ nt .listAssgnStmt
  | .shortAssignmentStmt => nt .designator ⬝ tok .opEq ⬝ nt .expr
  | .singleDeclAssgnStmt => tok .ident ⬝ tok .colonEq ⬝ nt .expr
  | .listDeclAssgnStmt => nt .identList ⬝ tok .colonEq ⬝ nt .exprList
  | .declAssignmentStmt => nt .singleDeclAssgnStmt ∣ nt .listDeclAssgnStmt
  | .incDecStmt => nt .designator ⬝ tok .incDec
  | .callStmt => nt .designator
  | .ifStmt =>
    tok .kIf ⬝ opt (nt .shortVarDecl ⬝ tok .semi) ⬝ nt .expr ⬝ nt .block ⬝ opt (tok .kElse ⬝ (nt .ifStmt ∣ nt .block))
  | .switchStmt => nt .exprSwitchStmt ∣ nt .typeSwitchStmt
  | .exprSwitchStmt =>
    tok .kSwitch ⬝ opt (nt .shortVarDecl ⬝ tok .semi) ⬝ nt .expr ⬝ tok .lbrace ⬝ star (nt .exprCase) ⬝ opt (nt .default_) ⬝
      tok .rbrace
  | .exprCase => tok .kCase ⬝ nt .expr ⬝ star (tok .comma ⬝ nt .expr) ⬝ tok .colon ⬝ nt .stmtList
  | .typeSwitchStmt =>
    tok .kSwitch ⬝ tok .ident ⬝ tok .colonEq ⬝ tok .kType ⬝ tok .lpar ⬝ nt .expr ⬝ tok .rpar ⬝ tok .lbrace ⬝
      star (nt .typeCase) ⬝ opt (nt .default_) ⬝ tok .rbrace
  | .typeCase => tok .kCase ⬝ nt .type_ ⬝ tok .colon ⬝ nt .stmtList
  | .default_ => tok .kDefault ⬝ tok .colon ⬝ nt .stmtList
  | .forStmt => tok .kFor ⬝ (nt .forHeader ∣ nt .forInHeader) ⬝ nt .block
  | .forHeader => opt (nt .shortVarDecl ⬝ tok .semi) ⬝ nt .expr ⬝ opt (tok .semi ⬝ nt .simpleStmt)
  | .forInHeader => tok .ident ⬝ opt (tok .comma ⬝ tok .ident ⬝ opt (tok .caret)) ⬝ tok .kIn ⬝ nt .expr
  | .breakStmt => tok .kBreak
  | .continueStmt => tok .kContinue
  | .returnStmt => tok .kReturn ⬝ opt (nt .exprList)
  | .exprList => nt .expr ⬝ star (tok .comma ⬝ nt .expr)
  | .expr => one exprs
  | .designatorList => nt .designator ⬝ star (tok .comma ⬝ nt .designator)
  | .designator => one designators
  | .qualIdent => opt (tok .ident ⬝ tok .colonColon) ⬝ tok .ident
  | _ => never

/-- Items that are separated by semicolons, where the last one may be omitted: `[first {";" item} [";"]]` -/
abbrev items (first item : EBNF) : EBNF := opt (first ⬝ star (tok .semi ⬝ item) ⬝ opt (tok .semi))

/-- The same between brackets. -/
abbrev group' (o c : Tok) (item : EBNF) : EBNF := tok o ⬝ items item item ⬝ tok c

/-- The language that is accepted. The rules that are not listed are those of the documentation. -/
def accepted : NT → EBNF
  -- the last semicolon can be omitted, also at the end of the file, and a module can be empty
  | .import_ => tok .kImport ⬝ (nt .importItem ∣ group' .lpar .rpar (nt .importItem))
  | .decls => items (nt .decl) (nt .decl)
  | .typeDecl => tok .kType ⬝ (nt .typeDeclItem ∣ group' .lpar .rpar (nt .typeDeclItem))
  | .fullVarDecl => tok .kVar ⬝ (nt .varDeclItem ∣ group' .lpar .rpar (nt .varDeclItem))
  | .enumType => tok .kEnum ⬝ opt (tok .lpar ⬝ nt .type_ ⬝ tok .rpar) ⬝ group' .lbrace .rbrace (nt .enumItem)
  | .interfaceType => tok .kInterface ⬝ group' .lbrace .rbrace (tok .ident ⬝ nt .signature ∣ nt .qualIdent)
  -- the values of the constants of a group after the first one can be omitted
  | .constDecl =>
    tok .kConst ⬝ (nt .constDeclItem ∣ tok .lpar ⬝ items (nt .constDeclItem) (nt .nextConst) ⬝ tok .rpar)
  | .nextConst => tok .ident ⬝ nt .exportMark ⬝ opt (tok .eq ⬝ nt .expr)
  -- the initial value of a variable can be omitted; one variable has one initial value
  | .varDeclItem =>
    tok .ident ⬝ nt .exportMark ⬝ tok .colon ⬝ nt .type_ ⬝ opt (tok .eq ⬝ nt .expr) ∣
    tok .ident ⬝ nt .exportMark ⬝ tok .comma ⬝ nt .identList ⬝ tok .colon ⬝ nt .type_ ⬝ opt (tok .eq ⬝ nt .exprList)
  | .shortVarDecl =>
    tok .ident ⬝ nt .exportMark ⬝ tok .colonEq ⬝ nt .expr ∣
    tok .ident ⬝ nt .exportMark ⬝ tok .comma ⬝ nt .identList ⬝ tok .colonEq ⬝ nt .exprList
  -- fields and parameters have no export marks
  | .names => tok .ident ⬝ star (tok .comma ⬝ tok .ident)
  | .structType => tok .kStruct ⬝ group' .lbrace .rbrace (nt .names ⬝ tok .colon ⬝ nt .type_)
  -- variadic parameters and parameters with default values are the last ones, and only one kind of them may be there
  | .signature =>
    tok .lpar ⬝ opt (nt .params) ⬝ tok .rpar ⬝
      opt (tok .colon ⬝ (nt .type_ ∣ tok .lpar ⬝ nt .type_ ⬝ star (tok .comma ⬝ nt .type_) ⬝ tok .rpar))
  | .params => nt .names ⬝ tok .colon ⬝ nt .type_ ⬝ opt (tok .comma ⬝ nt .params) ∣ nt .variadic ∣ nt .defaults
  | .variadic => tok .ident ⬝ tok .colon ⬝ tok .ellipsis ⬝ nt .type_
  | .defaults =>
    tok .ident ⬝ tok .colon ⬝ nt .type_ ⬝ tok .eq ⬝ nt .expr ⬝ opt (tok .comma ⬝ nt .defaults)
  -- a statement can be empty; functions are not declared in blocks; short declarations in blocks have no export
  -- marks; `return` without a value stands before `;` or `}`
  | .stmt => nt .closedStmt ∣ tok .kReturn
  | .closedStmt =>
    opt (nt .typeDecl ∣ nt .constDecl ∣ nt .fullVarDecl ∣ nt .block ∣ nt .simpleStmt ∣ nt .ifStmt ∣ nt .switchStmt ∣
      nt .forStmt ∣ nt .breakStmt ∣ nt .continueStmt ∣ tok .kReturn ⬝ nt .exprList)
  | .closedList => star (nt .stmt ⬝ tok .semi) ⬝ nt .closedStmt
  | .localVarDecl =>
    tok .ident ⬝ tok .colonEq ⬝ nt .expr ∣ tok .ident ⬝ tok .comma ⬝ nt .names ⬝ tok .colonEq ⬝ nt .exprList
  | .simpleStmt =>
    nt .localVarDecl ∣ nt .assignmentStmt ∣ nt .shortAssignmentStmt ∣ nt .incDecStmt ∣ nt .callStmt
  -- only places can be assigned to, and only calls are statements; one place gets one value
  | .singleAssgnStmt => one places ⬝ tok .eq ⬝ nt .expr
  | .listAssgnStmt => one places ⬝ tok .comma ⬝ nt .designatorList ⬝ tok .eq ⬝ nt .exprList
  | .designatorList => one places ⬝ star (tok .comma ⬝ one places)
  | .shortAssignmentStmt => one places ⬝ tok .opEq ⬝ nt .expr
  | .callStmt => tok .call
  | .ifStmt =>
    tok .kIf ⬝ opt (nt .localVarDecl ⬝ tok .semi) ⬝ nt .expr ⬝ nt .block ⬝ opt (tok .kElse ⬝ (nt .ifStmt ∣ nt .block))
  | .exprSwitchStmt =>
    tok .kSwitch ⬝ opt (nt .localVarDecl ⬝ tok .semi) ⬝ nt .expr ⬝ tok .lbrace ⬝ star (nt .exprCase) ⬝
      opt (nt .lastExprCase ∣ nt .default_) ⬝ tok .rbrace
  | .exprCase => tok .kCase ⬝ nt .exprList ⬝ tok .colon ⬝ nt .closedList
  | .lastExprCase => tok .kCase ⬝ nt .exprList ⬝ tok .colon ⬝ nt .stmtList
  | .typeSwitchStmt =>
    tok .kSwitch ⬝ tok .ident ⬝ tok .colonEq ⬝ tok .kType ⬝ tok .lpar ⬝ nt .expr ⬝ tok .rpar ⬝ tok .lbrace ⬝
      star (nt .typeCase) ⬝ opt (nt .lastTypeCase ∣ nt .default_) ⬝ tok .rbrace
  -- a function type before the colon of a case has a result type: the first colon after its parameters starts the result type
  | .typeCase => tok .kCase ⬝ nt .caseType ⬝ tok .colon ⬝ nt .closedList
  | .lastTypeCase => tok .kCase ⬝ nt .caseType ⬝ tok .colon ⬝ nt .stmtList
  | .caseType =>
    nt .qualIdent ∣ opt (tok .kWeak) ⬝ tok .caret ⬝ nt .caseType ∣ tok .lbracket ⬝ nt .expr ⬝ tok .rbracket ⬝ nt .caseType ∣
      tok .lbracket ⬝ tok .rbracket ⬝ nt .caseType ∣ nt .enumType ∣
      tok .kMap ⬝ tok .lbracket ⬝ nt .type_ ⬝ tok .rbracket ⬝ nt .caseType ∣ nt .structType ∣ nt .interfaceType ∣
      tok .kFn ⬝ tok .lpar ⬝ opt (nt .params) ⬝ tok .rpar ⬝ tok .colon ⬝
        (nt .caseType ∣ tok .lpar ⬝ nt .type_ ⬝ star (tok .comma ⬝ nt .type_) ⬝ tok .rpar)
  | .forHeader => opt (nt .localVarDecl ⬝ tok .semi) ⬝ nt .expr ⬝ opt (tok .semi ⬝ nt .simpleStmt)
  -- the rest is as documented
  | n => documented n

/-- The rules of the accepted language that differ from the documentation. -/
def changed : List NT :=
  [.import_, .decls, .typeDecl, .fullVarDecl, .enumType, .interfaceType, .constDecl, .varDeclItem, .shortVarDecl, .structType,
    .signature, .stmt, .simpleStmt, .singleAssgnStmt, .listAssgnStmt, .designatorList, .shortAssignmentStmt, .callStmt, .ifStmt,
    .exprSwitchStmt, .exprCase, .typeSwitchStmt, .typeCase, .forHeader]

/-- The rules that are not in the documentation. -/
def added : List NT :=
  [.nextConst, .names, .localVarDecl, .params, .defaults, .variadic, .closedStmt, .closedList, .lastExprCase, .lastTypeCase, .caseType]

/-- `fn f() {` … `}` -/
def inFn (ts : List Tok) : List Tok := [.kFn, .ident, .lpar, .rpar, .lbrace] ++ ts ++ [.rbrace]

/-- Modules that are derived from the documented grammar. They are rejected. -/
def onlyDocumented : List (List Tok) := [
  -- `x := 1, 2`
  [.ident, .colonEq, .expr, .comma, .expr],
  -- `var x: int = 1, 2`
  [.kVar, .ident, .colon, .ident, .eq, .expr, .comma, .expr],
  -- `type t = struct {x*: int;}`
  [.kType, .ident, .eq, .kStruct, .lbrace, .ident, .mul, .colon, .ident, .semi, .rbrace],
  -- `fn f(x: ..int, y: int)`
  [.kFn, .ident, .lpar, .ident, .colon, .ellipsis, .ident, .comma, .ident, .colon, .ident, .rpar],
  -- `fn f(x: int = 1, y: int)`
  [.kFn, .ident, .lpar, .ident, .colon, .ident, .eq, .expr, .comma, .ident, .colon, .ident, .rpar],
  -- `x* := 1` in a block
  inFn [.ident, .mul, .colonEq, .expr],
  -- `a[1]` in a block
  inFn [.place],
  -- `g() = 1`
  inFn [.call, .eq, .expr],
  -- `fn g()` in a block
  inFn [.kFn, .ident, .lpar, .rpar],
  -- `switch x {case 1: return case 2: return}`
  inFn [.kSwitch, .ident, .lbrace, .kCase, .expr, .colon, .kReturn, .kCase, .expr, .colon, .kReturn, .rbrace],
  -- `switch y := type(x) {case fn(): return}`
  inFn [.kSwitch, .ident, .colonEq, .kType, .lpar, .ident, .rpar, .lbrace, .kCase, .kFn, .lpar, .rpar, .colon, .kReturn, .rbrace]]

/-- Modules that are accepted. They are not derived from the documented grammar. -/
def onlyAccepted : List (List Tok) := [
  -- the empty module
  [],
  -- `x := 1;`
  [.ident, .colonEq, .expr, .semi],
  -- `var x: int`
  [.kVar, .ident, .colon, .ident],
  -- `type (t = int)`
  [.kType, .lpar, .ident, .eq, .ident, .rpar],
  -- `const (x = 1; y;)`
  [.kConst, .lpar, .ident, .eq, .expr, .semi, .ident, .semi, .rpar],
  -- `fn f() {}`
  inFn [],
  -- `for x {break}` with `y := 1` after the condition
  inFn [.kFor, .ident, .semi, .ident, .colonEq, .expr, .lbrace, .kBreak, .rbrace]]

end Umka.Syntax.Spec
