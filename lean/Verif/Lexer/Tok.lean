/-! # Lexer: tokens and errors, the vocabulary shared by model and specification -/

namespace Umka.Lexer

/-- Token kinds without a value (umka_lexer.h:13-87). -/
inductive Kind where
  -- keywords
  | kBreak | kCase | kConst | kContinue | kDefault | kElse | kEnum | kFn | kFor | kImport
  | kInterface | kIf | kIn | kMap | kReturn | kStruct | kSwitch | kType | kVar | kWeak
  -- operators
  | plus | minus | mul | div | mod | and | or | xor | shl | shr
  | plusEq | minusEq | mulEq | divEq | modEq | andEq | orEq | xorEq | shlEq | shrEq
  | andAnd | orOr | plusPlus | minusMinus | eqEq | less | greater | eq | question | not
  | notEq | lessEq | greaterEq | colonEq | lPar | rPar | lBracket | rBracket | lBrace | rBrace
  | caret | comma | semicolon | colon | colonColon | period | ellipsis
  deriving DecidableEq, Repr

/-- Tokens with their values (umka_lexer.h:80-107).  For a real number the value is given by the
integers from which the `double` is computed (umka_lexer.c:758-771); the floating-point computation
itself is not modelled. -/
inductive Tok where
  | kw (k : Kind)
  | op (k : Kind)
  | ident (name : List Char)
  | int (v : Nat)
  | real (whole frac fracLen expon : Nat) (negExp : Bool)
  | char (v : Nat)
  | str (bytes : List Nat)
  | implicitSemicolon
  | eoln
  | eof
  deriving DecidableEq, Repr

inductive Err where
  | unterminatedComment
  | identTooLong
  | invalidNumber
  | tooLarge
  | underscore
  | charCode
  | charLiteral
  | unterminatedString
  | illegalInString
  | unexpected
  deriving DecidableEq, Repr

end Umka.Lexer
