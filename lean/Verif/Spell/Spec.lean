import Verif.Spell.Model
/-!
# Spelling of types in messages: specification

The spelling of a type as one would write it by hand, without any buffers.  Only so many levels of pointers and items are shown; deeper ones are `...`.
-/

namespace Umka.Spell.Spec

/-- Texts one after another, with a text between them. -/
def sep (s : Text) : List Text → Text
  | [] => []
  | [t] => t
  | t :: ts => t ++ s ++ sep s ts

/-- What is written before the base type. -/
def mark : Prefix → Text
  | .ptr => ['^']
  | .weak => ['w', 'e', 'a', 'k', ' ', '^']
  | .dynArray => ['[', ']']

mutual

/-- The spelling of a type. -/
def full (depth : Nat) : T → Text
  | .named name => name
  | .array n item => '[' :: (toString n).toList ++ [']'] ++ (if depth > 0 then full (depth - 1) item else "...".toList)
  | .enum kind => "enum(".toList ++ kind ++ ")".toList
  | .map key item => "map[".toList ++ full (depth - 1) key ++ "]".toList ++ (if depth > 0 then full (depth - 1) item else "...".toList)
  | .list fields => "{ ".toList ++ ((all depth fields).map (· ++ " ".toList)).flatten ++ "}".toList
  | .fn method self params void result closure =>
    "fn (".toList ++ (if method then full (depth - 1) self ++ ") (".toList else []) ++ sep ", ".toList (all depth params) ++ ")".toList ++
      (if void then [] else ": ".toList ++ full (depth - 1) result) ++ (if closure then " |...|".toList else [])
  | .pre kind base => mark kind ++ (if depth > 0 then full (depth - 1) base else "...".toList)
  | .other kind => kind

def all (depth : Nat) : List T → List Text
  | [] => []
  | t :: ts => full (depth - 1) t :: all depth ts

end

mutual

/-- All spellings of pointers and dynamic arrays within the spelling of the type fit into the buffer. -/
def Fits (depth : Nat) : T → Prop
  | .named _ => True
  | .array _ item => depth > 0 → Fits (depth - 1) item
  | .enum _ => True
  | .map key item => Fits (depth - 1) key ∧ (depth > 0 → Fits (depth - 1) item)
  | .list fields => AllFit depth fields
  | .fn method self params void result _ => (method = true → Fits (depth - 1) self) ∧ AllFit depth params ∧ (void = false → Fits (depth - 1) result)
  | .pre kind base => (full depth (.pre kind base)).length < 256 ∧ (depth > 0 → Fits (depth - 1) base)
  | .other _ => True

def AllFit (depth : Nat) : List T → Prop
  | [] => True
  | t :: ts => Fits (depth - 1) t ∧ AllFit depth ts

end

end Umka.Spell.Spec
