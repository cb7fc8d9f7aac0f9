import Verif.Ascii.Model

/-!
# JSON texts and the tokens they denote

Written from the JSON grammar (RFC 8259), without reference to the code: a text is a concrete syntax tree
with its white space; `text` spells it, `toks` lists the tokens it denotes.
-/

namespace Abc.Json.Spec

open Abc.Ascii

/-- White space. -/
def IsWs (c : Byte) : Prop := c = 32 ∨ c = 9 ∨ c = 10 ∨ c = 13

/-- Only white space. -/
def Ws (w : List Byte) : Prop := ∀ c ∈ w, IsWs c

/-- A decimal digit. -/
def Digit (c : Byte) : Prop := 48 ≤ c.toNat ∧ c.toNat ≤ 57

/-- A hexadecimal digit. -/
def Hexdig (c : Byte) : Prop :=
  (48 ≤ c.toNat ∧ c.toNat ≤ 57) ∨ (65 ≤ c.toNat ∧ c.toNat ≤ 70) ∨ (97 ≤ c.toNat ∧ c.toNat ≤ 102)

/-- Its value. -/
def hexVal (c : Byte) : Nat :=
  if c.toNat ≤ 57 then c.toNat - 48 else if c.toNat ≤ 70 then c.toNat - 55 else c.toNat - 87

/-- An escape: a backslash with one character, or `\u00` with two hexadecimal digits. -/
inductive Es where
  | simple (c : Byte)
  | uni (a b : Byte)
  deriving DecidableEq, Repr

/-- The escapes with one character and what they stand for. -/
def Es.table : List (Byte × Byte) :=
  [(34, 34), (92, 92), (47, 47), (98, 8), (102, 12), (110, 10), (114, 13), (116, 9)]

def Es.text : Es → List Byte
  | .simple c => [92, c]
  | .uni a b => [92, 117, 48, 48, a, b]

def Es.val : Es → Byte
  | .simple c => ((Es.table.find? fun x => x.1 = c).map (·.2)).getD 0
  | .uni a b => UInt8.ofNat (16 * hexVal a + hexVal b)

/-- The escape, followed by this run of plain characters: for `\u00XX` the run must not start with a
hexadecimal digit (the reader does not accept that, see `C09_violated_hex`). -/
def Es.Ok (run : List Byte) : Es → Prop
  | .simple c => ∃ x ∈ Es.table, x.1 = c
  | .uni a b => Hexdig a ∧ Hexdig b ∧ ∀ c ∈ run.head?, ¬ Hexdig c

/-- A plain character of a string: not a quotation mark, not a backslash. -/
def Plain (c : Byte) : Prop := c ≠ 34 ∧ c ≠ 92

/-- A string without its quotation marks: a run of plain characters, then escapes each followed by a
run of plain characters. -/
structure Str where
  head : List Byte
  tail : List (Es × List Byte) := []
  deriving DecidableEq, Repr

def tailText (tail : List (Es × List Byte)) : List Byte := tail.flatMap fun x => x.1.text ++ x.2
def tailVal (tail : List (Es × List Byte)) : List Byte := tail.flatMap fun x => x.1.val :: x.2

/-- The characters between the quotation marks. -/
def Str.text (s : Str) : List Byte := s.head ++ tailText s.tail
/-- The characters denoted. -/
def Str.val (s : Str) : List Byte := s.head ++ tailVal s.tail

def Str.Ok (s : Str) : Prop :=
  (∀ c ∈ s.head, Plain c) ∧ ∀ x ∈ s.tail, x.1.Ok x.2 ∧ ∀ c ∈ x.2, Plain c

/-- A number: sign, digits, fraction, exponent. -/
structure Num where
  sign : Option Byte := none
  int : List Byte
  frac : Option (List Byte) := none
  exp : Option (Byte × Option Byte × List Byte) := none
  deriving DecidableEq, Repr

def fracText : Option (List Byte) → List Byte
  | none => []
  | some d => 46 :: d
def expText : Option (Byte × Option Byte × List Byte) → List Byte
  | none => []
  | some (e, s, d) => e :: (s.toList ++ d)

def Num.text (n : Num) : List Byte := n.sign.toList ++ n.int ++ fracText n.frac ++ expText n.exp

/-- Of at most 25 characters. -/
def Num.Ok (n : Num) : Prop :=
  (∀ c ∈ n.sign, c = 43 ∨ c = 45) ∧ n.int ≠ [] ∧ (∀ c ∈ n.int, Digit c) ∧
  (∀ d ∈ n.frac, d ≠ [] ∧ ∀ c ∈ d, Digit c) ∧
  (∀ x ∈ n.exp, (x.1 = 101 ∨ x.1 = 69) ∧ (∀ c ∈ x.2.1, c = 43 ∨ c = 45) ∧ x.2.2 ≠ [] ∧ ∀ c ∈ x.2.2, Digit c) ∧
  n.text.length ≤ 25

/-- A scalar. -/
inductive Atom where
  | null
  | bool (b : Bool)
  | num (n : Num)
  | str (s : Str)
  deriving DecidableEq, Repr

def Atom.text : Atom → List Byte
  | .null => [110, 117, 108, 108]
  | .bool true => [116, 114, 117, 101]
  | .bool false => [102, 97, 108, 115, 101]
  | .num n => n.text
  | .str s => 34 :: (s.text ++ [34])

def Atom.Ok : Atom → Prop
  | .num n => n.Ok
  | .str s => s.Ok
  | _ => True

/-- A token. -/
inductive Token where
  | null
  | bool (b : Bool)
  | num (text : List Byte)
  | str (val : List Byte)
  | prop (val : List Byte)
  | beginArray | endArray | beginObject | endObject
  deriving DecidableEq, Repr

def Atom.tok : Atom → Token
  | .null => .null
  | .bool b => .bool b
  | .num n => .num n.text
  | .str s => .str s.val

mutual
/-- A value.  `w` is the white space after the opening bracket. -/
inductive Value where
  | atom (a : Atom)
  | arr (w : List Byte) (es : Elems)
  | obj (w : List Byte) (ms : Mems)
/-- The elements of an array: the value, the white space after it, and (after a comma, if there are
more) the white space before the next. -/
inductive Elems where
  | nil
  | cons (v : Value) (trail lead : List Byte) (rest : Elems)
/-- The members of an object: the name, the white space before and after the colon, and so on. -/
inductive Mems where
  | nil
  | cons (name : Str) (w1 w2 : List Byte) (v : Value) (trail lead : List Byte) (rest : Mems)
end

/-- The separator before the remaining elements. -/
def Elems.sep (lead : List Byte) : Elems → List Byte
  | .nil => []
  | .cons .. => 44 :: lead
/-- The separator before the remaining members. -/
def Mems.sep (lead : List Byte) : Mems → List Byte
  | .nil => []
  | .cons .. => 44 :: lead

mutual
def Value.text : Value → List Byte
  | .atom a => a.text
  | .arr w es => 91 :: (w ++ es.text ++ [93])
  | .obj w ms => 123 :: (w ++ ms.text ++ [125])
def Elems.text : Elems → List Byte
  | .nil => []
  | .cons v trail lead rest => v.text ++ (trail ++ rest.sep lead) ++ rest.text
def Mems.text : Mems → List Byte
  | .nil => []
  | .cons name w1 w2 v trail lead rest =>
    34 :: (name.text ++ [34]) ++ w1 ++ [58] ++ w2 ++ v.text ++ (trail ++ rest.sep lead) ++ rest.text
end

mutual
def Value.toks : Value → List Token
  | .atom a => [a.tok]
  | .arr _ es => .beginArray :: (es.toks ++ [.endArray])
  | .obj _ ms => .beginObject :: (ms.toks ++ [.endObject])
def Elems.toks : Elems → List Token
  | .nil => []
  | .cons v _ _ rest => v.toks ++ rest.toks
def Mems.toks : Mems → List Token
  | .nil => []
  | .cons name _ _ v _ _ rest => .prop name.val :: (v.toks ++ rest.toks)
end

mutual
/-- Numbers, strings and white space are as they should be. -/
def Value.Ok : Value → Prop
  | .atom a => a.Ok
  | .arr w es => Ws w ∧ es.Ok
  | .obj w ms => Ws w ∧ ms.Ok
def Elems.Ok : Elems → Prop
  | .nil => True
  | .cons v trail lead rest => v.Ok ∧ Ws trail ∧ Ws lead ∧ rest.Ok
def Mems.Ok : Mems → Prop
  | .nil => True
  | .cons name w1 w2 v trail lead rest =>
    name.Ok ∧ Ws w1 ∧ Ws w2 ∧ v.Ok ∧ Ws trail ∧ Ws lead ∧ rest.Ok
end

mutual
/-- Nesting depth. -/
def Value.depth : Value → Nat
  | .atom _ => 0
  | .arr _ es => es.depth + 1
  | .obj _ ms => ms.depth + 1
def Elems.depth : Elems → Nat
  | .nil => 0
  | .cons v _ _ rest => max v.depth rest.depth
def Mems.depth : Mems → Nat
  | .nil => 0
  | .cons _ _ _ v _ _ rest => max v.depth rest.depth
end

end Abc.Json.Spec
