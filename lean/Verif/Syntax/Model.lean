/-
Model of the parsing of modules, declarations, types and statements:
the order in which the parser functions of umka_decl.c and umka_stmt.c take tokens, and the
tokens at which they report an error.

Only the syntax is modelled. What is checked about names, types and constants is left out (the
areas Scope, TypeDecl, Types, Conv, Static, ListAsg, Call and Enum deal with that), except for
the rules that depend on the tokens alone: where export marks, variadic parameters and default
values may stand, and what the left side of an assignment may look like.

An expression or a designator is one token here: the functions of umka_expr.c that read it are
not modelled (see the area Expr for the operators), nor are the ends of lines, which the lexer
turns into semicolons (see the area Lexer). `TOK_SEMICOLON` and `TOK_IMPLICIT_SEMICOLON`, which
the parser treats alike (umka_lexer.c:951-957), are one token. The limits on the
numbers of identifiers and parameters (MAX_IDENTS_IN_LIST, MAX_PARAMS) are left out.
-/
namespace Umka.Syntax

/-- The kinds of tokens (umka_lexer.h:7-92). The ten short assignment operators and the two operators
`++`, `--` are one kind each: the parser of statements does not tell them apart
(umka_stmt.c:452, 464). The last five stand for whole designators and expressions:
`ident` is a name (as a designator, the name of a variable), `place` any other designator that can be assigned to,
`call` a designator that ends with a call, `val` any other designator (a cast, a literal with braces, an
enumeration constant), `expr` an expression that is no designator and no string literal. -/
inductive Tok
  | kImport | kType | kConst | kVar | kFn | kEnum | kMap | kStruct | kInterface | kWeak
  | kIf | kElse | kSwitch | kCase | kDefault | kFor | kIn | kBreak | kContinue | kReturn
  | lpar | rpar | lbrace | rbrace | lbracket | rbracket
  | comma | colon | colonColon | semi | eq | colonEq | opEq | incDec | mul | caret | ellipsis
  | str
  | ident | place | call | val | expr
  deriving DecidableEq, Repr

/-- A parser function: takes the tokens ahead of it, leaves the tokens after those it has taken,
or reports an error (`umka->error.handler` does not return, umka_api.c:34-46). -/
abbrev P := List Tok → Option (List Tok)

/-- One function call after another. -/
def P.then (p q : P) : P := fun ts => (p ts).bind q

@[inherit_doc] infixr:65 " ⟫ " => P.then

/-- Nothing. -/
def skip : P := some

/-- `umka->error.handler(…)`. -/
def fail : P := fun _ => none

/-- `lex.tok.kind` is one of the given kinds. -/
def at_ (l : List Tok) (ts : List Tok) : Bool :=
  match ts with
  | t :: _ => l.contains t
  | [] => false

/-- `if (tok.kind == … || …) p else q`. -/
def ifAt (l : List Tok) (p q : P) : P := fun ts => if at_ l ts then p ts else q ts

/-- `lexNext` after a look at the token. -/
def next : P := fun ts =>
  match ts with
  | _ :: ts => some ts
  | [] => none

/-- `lexEat(kind)` for a kind other than TOK_SEMICOLON; `lexCheck(kind)` and then `lexNext`
(umka_lexer.c:951-968). -/
def eat (t : Tok) : P := fun ts => if at_ [t] ts then next ts else none

/-- `lexEat(TOK_SEMICOLON)` (umka_lexer.c:960-968): the semicolon may be omitted before `)` and `}`. -/
def eatSemi : P := fun ts => if at_ [.rpar, .rbrace] ts then some ts else eat .semi ts

/-- `while (tok.kind == … || …) p`, where `p` takes at least one token: at most `n` times. -/
def manyN (l : List Tok) (p : P) : Nat → P
  | 0, ts => if at_ l ts then none else some ts
  | n + 1, ts => if at_ l ts then (p ts).bind (manyN l p n) else some ts

/-- `while (tok.kind == … || …) p`: as many times as there are tokens, at most. -/
def many (l : List Tok) (p : P) : P := fun ts => manyN l p ts.length ts

/-! ### Expressions and designators, as one token each -/

/-- What can be an expression. -/
def exprs : List Tok := [.ident, .place, .call, .val, .expr, .str]
/-- What can be a designator. -/
def designators : List Tok := [.ident, .place, .call, .val]
/-- What can be assigned to (`isVar && !isCall && !isCompLit`). -/
def places : List Tok := [.ident, .place]

/-- parseExpr (umka_expr.c:3077-3167), as one token. -/
def parseExpr : P := ifAt exprs next fail

/-- parseExprList (umka_expr.c:3171-3258): `exprList = expr {"," expr}`. -/
def parseExprList : P := parseExpr ⟫ many [.comma] (next ⟫ parseExpr)

/-! ### Lists of identifiers -/

/-- parseIdentList with parseExportMark (umka_decl.c:39-47, 51-70): the export marks of the
identifiers of the list. -/
def parseIdentList : List Tok → Option (List Bool × List Tok)
  | .ident :: .mul :: .comma :: ts => (parseIdentList ts).map fun r => (true :: r.1, r.2)
  | .ident :: .mul :: ts => some ([true], ts)
  | .ident :: .comma :: ts => (parseIdentList ts).map fun r => (false :: r.1, r.2)
  | .ident :: ts => some ([false], ts)
  | _ => none

/-- parseExportMark (umka_decl.c:39-47). -/
def parseExportMark : P := ifAt [.mul] next skip

/-! ### Types -/

/-- parseQualIdent and the `lexNext` after it (umka_expr.c:800-825, umka_decl.c:519-529): `qualIdent = [ident "::"] ident`.
parseTypeOrForwardType (umka_decl.c:16-35) takes the same tokens as parseType. -/
def parseQualIdent : P := fun ts =>
  match ts with
  | .ident :: .colonColon :: ts => eat .ident ts
  | .ident :: ts => some ts
  | _ => none

/-- parsePtrType (umka_decl.c:251-268). -/
def parsePtrType (type : P) : P := ifAt [.kWeak] next skip ⟫ eat .caret ⟫ type

/-- parseArrayType (umka_decl.c:273-307). -/
def parseArrayType (type : P) : P :=
  eat .lbracket ⟫ ifAt [.rbracket] skip parseExpr ⟫ eat .rbracket ⟫ type

/-- parseEnumItem (umka_decl.c:311-333). -/
def parseEnumItem : P := eat .ident ⟫ ifAt [.eq] (eat .eq ⟫ parseExpr) skip

/-- parseEnumType (umka_decl.c:337-368). -/
def parseEnumType (type : P) : P :=
  eat .kEnum ⟫ ifAt [.lpar] (next ⟫ type ⟫ eat .rpar) skip ⟫ eat .lbrace ⟫
    many [.ident] (parseEnumItem ⟫ eatSemi) ⟫ eat .rbrace

/-- parseMapType (umka_decl.c:372-406). -/
def parseMapType (type : P) : P :=
  eat .kMap ⟫ eat .lbracket ⟫ type ⟫ eat .rbracket ⟫ type

/-- The fields of one line of a structure: parseTypedIdentList (umka_decl.c:74-79) and the check of
the export marks in parseStructType (umka_decl.c:423-428). -/
def parseFields (type : P) : P := fun ts =>
  (parseIdentList ts).bind fun r =>
    ((eat .colon ⟫ type) r.2).bind fun ts =>
      if r.1.any id then none else some ts

/-- parseStructType (umka_decl.c:410-436). -/
def parseStructType (type : P) : P :=
  eat .kStruct ⟫ eat .lbrace ⟫ many [.ident] (parseFields type ⟫ eatSemi) ⟫ eat .rbrace

/-- The loop over the parameters in parseSignature (umka_decl.c:147-204), with parseTypedParamList
(umka_decl.c:83-105): at most `n` times. `variadic` is `variadicParamListFound`, `dflt` is
`numDefaultParams != 0`. -/
def parseParams (type : P) : Nat → Bool → Bool → P
  | 0, _, _, _ => none
  | n + 1, variadic, dflt, ts =>
    if variadic then none else
    (parseIdentList ts).bind fun r =>
      (eat .colon r.2).bind fun ts =>
        if at_ [.ellipsis] ts && r.1.length != 1 then none else
        let variadic := at_ [.ellipsis] ts
        (((ifAt [.ellipsis] next skip) ⟫ type) ts).bind fun ts =>
          let given := at_ [.eq] ts
          if given && r.1.length != 1 then none else
          if given && variadic then none else
          if !given && dflt then none else
          ((ifAt [.eq] (next ⟫ parseExpr) skip) ts).bind fun ts =>
            if r.1.any id then none else
            if at_ [.comma] ts then (next ts).bind (parseParams type n variadic (dflt || given)) else some ts

/-- parseSignature (umka_decl.c:137-247). -/
def parseSignature (type : P) : P :=
  eat .lpar ⟫ ifAt [.ident] (fun ts => parseParams type ts.length false false ts) skip ⟫ eat .rpar ⟫
    ifAt [.colon]
      (next ⟫ ifAt [.lpar] (next ⟫ type ⟫ many [.comma] (next ⟫ type) ⟫ eat .rpar) type)
      skip

/-- One line of an interface (umka_decl.c:452-491): a method, if `(` follows the identifier, or the name of an interface
(parseType, umka_decl.c:475, at an identifier). -/
def parseMethod (type : P) : P := fun ts =>
  match ts with
  | .ident :: .lpar :: _ => (eat .ident ⟫ parseSignature type) ts
  | _ => parseQualIdent ts

/-- parseInterfaceType (umka_decl.c:440-494). -/
def parseInterfaceType (type : P) : P :=
  eat .kInterface ⟫ eat .lbrace ⟫ many [.ident] (parseMethod type ⟫ eatSemi) ⟫ eat .rbrace

/-- parseClosureType (umka_decl.c:498-513). -/
def parseClosureType (type : P) : P := eat .kFn ⟫ parseSignature type

/-- parseType (umka_decl.c:517-541): types nested at most `n` deep. -/
def parseTypeN : Nat → P
  | 0 => fail
  | n + 1 =>
    ifAt [.ident] parseQualIdent <|
    ifAt [.caret, .kWeak] (parsePtrType (parseTypeN n)) <|
    ifAt [.lbracket] (parseArrayType (parseTypeN n)) <|
    ifAt [.kEnum] (parseEnumType (parseTypeN n)) <|
    ifAt [.kMap] (parseMapType (parseTypeN n)) <|
    ifAt [.kStruct] (parseStructType (parseTypeN n)) <|
    ifAt [.kInterface] (parseInterfaceType (parseTypeN n)) <|
    ifAt [.kFn] (parseClosureType (parseTypeN n))
    fail

/-- parseType (umka_decl.c:517-541): each nested type takes a token, so the number of tokens bounds the depth. -/
def parseType : P := fun ts => parseTypeN ts.length ts

/-! ### Declarations -/

/-- parseTypeDeclItem (umka_decl.c:545-560). -/
def parseTypeDeclItem : P := eat .ident ⟫ parseExportMark ⟫ eat .eq ⟫ parseType

/-- parseTypeDecl (umka_decl.c:564-584). -/
def parseTypeDecl : P :=
  eat .kType ⟫
    ifAt [.lpar] (next ⟫ many [.ident] (parseTypeDeclItem ⟫ eatSemi) ⟫ eat .rpar) parseTypeDeclItem

/-- parseConstDeclItem (umka_decl.c:588-615). `first` is `*type == NULL`. All constants are taken to be integers here:
after a constant of another type the `=` is required again. -/
def parseConstDeclItem (first : Bool) : P :=
  eat .ident ⟫ parseExportMark ⟫
    if first then eat .eq ⟫ parseExpr else ifAt [.eq] (eat .eq ⟫ parseExpr) skip

/-- parseConstDecl (umka_decl.c:619-638). The first time the loop is run is written out. -/
def parseConstDecl : P :=
  eat .kConst ⟫
    ifAt [.lpar]
      (next ⟫
        ifAt [.ident] (parseConstDeclItem true ⟫ eatSemi ⟫ many [.ident] (parseConstDeclItem false ⟫ eatSemi)) skip ⟫
        eat .rpar)
      (parseConstDeclItem true)

/-- parseVarDeclItem (umka_decl.c:642-691), with parseTypedIdentList (umka_decl.c:74-79) and parseAssignmentStmt
(umka_stmt.c:279-285): one expression for one variable, a list of expressions for many. -/
def parseVarDeclItem : P := fun ts =>
  (parseIdentList ts).bind fun r =>
    (eat .colon ⟫ parseType ⟫
      ifAt [.eq] (next ⟫ if r.1.length != 1 then parseExprList else parseExpr) skip) r.2

/-- parseFullVarDecl (umka_decl.c:695-711). -/
def parseFullVarDecl : P :=
  eat .kVar ⟫
    ifAt [.lpar] (next ⟫ many [.ident] (parseVarDeclItem ⟫ eatSemi) ⟫ eat .rpar) parseVarDeclItem

/-- parseShortVarDecl (umka_decl.c:715-724), with parseDeclAssignmentStmt (umka_stmt.c:410-416). -/
def parseShortVarDecl : P := fun ts =>
  (parseIdentList ts).bind fun r =>
    (eat .colonEq ⟫ if r.1.length > 1 then parseExprList else parseExpr) r.2

/-! ### Statements -/

/-- doShortVarDeclLookahead (umka_stmt.c:135-151). -/
def shortVarDeclAhead : List Tok → Bool
  | .ident :: .comma :: ts => shortVarDeclAhead ts
  | .ident :: .colonEq :: _ => true
  | _ => false

/-- doTypeSwitchStmtLookahead (umka_stmt.c:154-174). -/
def typeSwitchAhead : List Tok → Bool
  | .kSwitch :: .ident :: .colonEq :: .kType :: _ => true
  | _ => false

/-- doForPostIncDecStmtLookahead (umka_stmt.c:177-189). -/
def postIncDecAhead : List Tok → Bool
  | .ident :: .incDec :: _ => true
  | _ => false

/-- The lookahead of parseForStmt for `in` and `,` (umka_stmt.c:1093-1096). -/
def forInAhead : List Tok → Bool
  | _ :: .comma :: _ => true
  | _ :: .kIn :: _ => true
  | _ => false

/-- parseSimpleStmt (umka_stmt.c:437-478), with parseDesignatorList (umka_expr.c:2726-2759), parseAssignmentStmt (umka_stmt.c:279-285),
parseShortAssignmentStmt (umka_stmt.c:289-311) and parseIncDecStmt (umka_stmt.c:420-432). -/
def parseSimpleStmt : P := fun ts =>
  if shortVarDeclAhead ts then parseShortVarDecl ts else
  match ts with
  | d :: ts =>
    if designators.contains d then
      if places.contains d && at_ [.comma] ts then
        (many [.comma] (next ⟫ ifAt places next fail) ⟫ eat .eq ⟫ parseExprList) ts
      else if at_ [.eq, .opEq] ts then
        if places.contains d then (next ⟫ parseExpr) ts else none
      else if at_ [.incDec] ts then next ts
      else if d == .call then some ts
      else none
    else none
  | [] => none

/-- `if (doShortVarDeclLookahead(umka)) {parseShortVarDecl; lexEat(TOK_SEMICOLON);}` (umka_stmt.c:490-494, 665-669, 791-795). -/
def parseHeaderDecl : P := fun ts => if shortVarDeclAhead ts then (parseShortVarDecl ⟫ eatSemi) ts else some ts

/-- parseStmtList (umka_stmt.c:1246-1255). -/
def parseStmtList (stmt : P) : P := stmt ⟫ many [.semi] (next ⟫ stmt)

/-- parseBlock (umka_stmt.c:1259-1271); parseFnBlock (umka_stmt.c:1275-1380) takes the same tokens. -/
def parseBlock (stmt : P) : P := eat .lbrace ⟫ parseStmtList stmt ⟫ eat .rbrace

/-- parseIfStmt (umka_stmt.c:482-528): at most `n` times `else if`. -/
def parseIfStmtN (stmt : P) : Nat → P
  | 0 => fail
  | n + 1 =>
    eat .kIf ⟫ parseHeaderDecl ⟫ parseExpr ⟫ parseBlock stmt ⟫
      ifAt [.kElse] (next ⟫ ifAt [.kIf] (parseIfStmtN stmt n) (parseBlock stmt)) skip

/-- parseIfStmt (umka_stmt.c:482-528). -/
def parseIfStmt (stmt : P) : P := fun ts => parseIfStmtN stmt ts.length ts

/-- parseExprCase (umka_stmt.c:532-577). -/
def parseExprCase (stmt : P) : P := eat .kCase ⟫ parseExprList ⟫ eat .colon ⟫ parseStmtList stmt

/-- parseTypeCase (umka_stmt.c:581-635). -/
def parseTypeCase (stmt : P) : P := eat .kCase ⟫ parseType ⟫ eat .colon ⟫ parseStmtList stmt

/-- parseDefault (umka_stmt.c:639-653). -/
def parseDefault (stmt : P) : P := eat .kDefault ⟫ eat .colon ⟫ parseStmtList stmt

/-- parseExprSwitchStmt (umka_stmt.c:657-706). -/
def parseExprSwitchStmt (stmt : P) : P :=
  eat .kSwitch ⟫ parseHeaderDecl ⟫ parseExpr ⟫ eat .lbrace ⟫ many [.kCase] (parseExprCase stmt) ⟫
    ifAt [.kDefault] (parseDefault stmt) skip ⟫ eat .rbrace

/-- parseTypeSwitchStmt (umka_stmt.c:710-766). -/
def parseTypeSwitchStmt (stmt : P) : P :=
  eat .kSwitch ⟫ eat .ident ⟫ eat .colonEq ⟫ eat .kType ⟫ eat .lpar ⟫ parseExpr ⟫ eat .rpar ⟫
    eat .lbrace ⟫ many [.kCase] (parseTypeCase stmt) ⟫ ifAt [.kDefault] (parseDefault stmt) skip ⟫ eat .rbrace

/-- parseSwitchStmt (umka_stmt.c:770-776). -/
def parseSwitchStmt (stmt : P) : P := fun ts =>
  if typeSwitchAhead ts then parseTypeSwitchStmt stmt ts else parseExprSwitchStmt stmt ts

/-- The last part of parseForHeader (umka_stmt.c:813-856). -/
def parseForPost : P := fun ts => if postIncDecAhead ts then (next ⟫ next) ts else parseSimpleStmt ts

/-- parseForHeader (umka_stmt.c:788-869). -/
def parseForHeader : P := parseHeaderDecl ⟫ parseExpr ⟫ ifAt [.semi] (next ⟫ parseForPost) skip

/-- parseForInHeader (umka_stmt.c:873-1071). -/
def parseForInHeader : P :=
  eat .ident ⟫ ifAt [.comma] (next ⟫ eat .ident ⟫ ifAt [.caret] next skip) skip ⟫ eat .kIn ⟫ parseExpr

/-- The choice of the header in parseForStmt (umka_stmt.c:1093-1099). -/
def parseForEither : P := fun ts =>
  if !shortVarDeclAhead ts && forInAhead ts then parseForInHeader ts else parseForHeader ts

/-- parseForStmt (umka_stmt.c:1075-1131). -/
def parseForStmt (stmt : P) : P := eat .kFor ⟫ parseForEither ⟫ parseBlock stmt

/-- parseReturnStmt (umka_stmt.c:1161-1213). -/
def parseReturnStmt : P := eat .kReturn ⟫ ifAt [.semi, .rbrace] skip parseExprList

/-- The tokens at which parseStmt calls parseSimpleStmt (umka_stmt.c:1225-1232). A designator that starts with a type is one
token here. -/
def simpleStart : List Tok :=
  [.ident, .place, .call, .val, .caret, .kWeak, .lbracket, .kStruct, .kInterface, .kMap, .kFn]

/-- parseStmt (umka_stmt.c:1217-1242), with parseBreakStmt and parseContinueStmt (umka_stmt.c:1135-1157): statements nested at
most `n` deep. That `break` and `continue` stand in a loop is the matter of the area Control. -/
def parseStmtN : Nat → P
  | 0 => fail
  | n + 1 =>
    ifAt [.kType] parseTypeDecl <|
    ifAt [.kConst] parseConstDecl <|
    ifAt [.kVar] parseFullVarDecl <|
    ifAt [.lbrace] (parseBlock (parseStmtN n)) <|
    ifAt simpleStart parseSimpleStmt <|
    ifAt [.kIf] (parseIfStmt (parseStmtN n)) <|
    ifAt [.kSwitch] (parseSwitchStmt (parseStmtN n)) <|
    ifAt [.kFor] (parseForStmt (parseStmtN n)) <|
    ifAt [.kBreak] (eat .kBreak) <|
    ifAt [.kContinue] (eat .kContinue) <|
    ifAt [.kReturn] parseReturnStmt
    skip

/-- The block of a function (umka_stmt.c:1275-1380): each nested statement takes a token, so the number of tokens bounds the depth. -/
def parseFnBlock : P := fun ts => parseBlock (parseStmtN ts.length) ts

/-! ### Modules -/

/-- parseRcvSignature (umka_decl.c:109-133). -/
def parseRcvSignature : P := eat .lpar ⟫ eat .ident ⟫ eat .colon ⟫ parseType ⟫ eat .rpar

/-- parseFnDecl (umka_decl.c:728-764). -/
def parseFnDecl : P :=
  eat .kFn ⟫ ifAt [.lpar] parseRcvSignature skip ⟫ eat .ident ⟫ parseExportMark ⟫
    parseSignature parseType ⟫ ifAt [.lbrace] parseFnBlock skip

/-- parseDecl at the top level of a module (umka_decl.c:768-783), before the end of the file. -/
def parseDecl : P :=
  ifAt [.kType] parseTypeDecl <|
  ifAt [.kConst] parseConstDecl <|
  ifAt [.kVar] parseFullVarDecl <|
  ifAt [.ident] parseShortVarDecl <|
  ifAt [.kFn] parseFnDecl
  fail

/-- parseDecls (umka_decl.c:787-796): at most `n` times. At the end of the file parseDecl does nothing. -/
def parseDeclsN : Nat → List Tok → Bool
  | _, [] => true
  | 0, _ => false
  | n + 1, ts =>
    match parseDecl ts with
    | none => false
    | some [] => true
    | some ts =>
      match eatSemi ts with
      | none => false
      | some ts => parseDeclsN n ts

/-- parseImportItem (umka_decl.c:800-878), without the parsing of the imported module (see the area Imports). -/
def parseImportItem : P := ifAt [.ident] (next ⟫ eat .eq) skip ⟫ eat .str

/-- parseImport (umka_decl.c:882-898). -/
def parseImport : P :=
  eat .kImport ⟫
    ifAt [.lpar] (next ⟫ many [.str, .ident] (parseImportItem ⟫ eatSemi) ⟫ eat .rpar) parseImportItem

/-- parseModule (umka_decl.c:902-916), parseProgram (umka_decl.c:920-939): whether no syntax error is reported. -/
def accepts (ts : List Tok) : Bool :=
  match ifAt [.kImport] (parseImport ⟫ eatSemi) skip ts with
  | none => false
  | some ts => parseDeclsN (ts.length + 1) ts

end Umka.Syntax
