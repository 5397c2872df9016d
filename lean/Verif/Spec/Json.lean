import Verif.Model.Reporter

/-!
# C73: JSON (RFC 8259)

`Json.Reads text v`: the text is JSON for the value. All of JSON except numbers that are not natural numbers. -/

set_option autoImplicit false

namespace Mty.Json
open Cli

inductive Value where
  | null
  | bool (b : Bool)
  | num (n : Nat)
  | str (s : Str)
  | arr (l : List Value)
  | obj (l : List (Str × Value))

/-- White space. -/
def Blank (w : Str) : Prop := ∀ c ∈ w, c = ' ' ∨ c = '\t' ∨ c = '\n' ∨ c = '\r'

/-- The natural numbers: digits without leading zeros. -/
def Number (t : Str) (n : Nat) : Prop :=
  t ≠ [] ∧ (∀ c ∈ t, '0' ≤ c ∧ c ≤ '9') ∧ (t.head? = some '0' → t = ['0']) ∧ t.foldl (fun n c => 10 * n + (c.toNat - 48)) 0 = n

/-- A backslash and a letter. -/
inductive Short : Char → Char → Prop
  | quote : Short '"' '"'
  | backslash : Short '\\' '\\'
  | slash : Short '/' '/'
  | backspace : Short 'b' (Char.ofNat 8)
  | formFeed : Short 'f' (Char.ofNat 12)
  | lineFeed : Short 'n' '\n'
  | return : Short 'r' '\r'
  | tab : Short 't' '\t'

/-- A hexadecimal digit. -/
def Hex (c : Char) (n : Nat) : Prop :=
  ('0' ≤ c ∧ c ≤ '9' ∧ n = c.toNat - 48) ∨ ('a' ≤ c ∧ c ≤ 'f' ∧ n = c.toNat - 87) ∨ ('A' ≤ c ∧ c ≤ 'F' ∧ n = c.toNat - 55)

/-- Four hexadecimal digits. -/
inductive Unit : Str → Nat → Prop
  | mk {a b c d : Char} {i j k l : Nat} : Hex a i → Hex b j → Hex c k → Hex d l → Unit [a, b, c, d] (((i * 16 + j) * 16 + k) * 16 + l)

/-- What is between the quotation marks of a string. -/
inductive Chars : Str → Str → Prop
  | nil : Chars [] []
  | plain {c : Char} {t s : Str} : 32 ≤ c.toNat → c ≠ '"' → c ≠ '\\' → Chars t s → Chars (c :: t) (c :: s)
  | short {e c : Char} {t s : Str} : Short e c → Chars t s → Chars ('\\' :: e :: t) (c :: s)
  | unit {u t s : Str} {c : Char} : Unit u c.toNat → Chars t s → Chars ('\\' :: 'u' :: (u ++ t)) (c :: s)
  | pair {u v t s : Str} {c : Char} {h l : Nat} : Unit u h → Unit v l → 0xD800 ≤ h → h < 0xDC00 → 0xDC00 ≤ l → l < 0xE000 →
      c.toNat = 0x10000 + (h - 0xD800) * 0x400 + (l - 0xDC00) → Chars t s →
      Chars ('\\' :: 'u' :: (u ++ '\\' :: 'u' :: (v ++ t))) (c :: s)

mutual

/-- The text, without white space around it, is JSON for the value. -/
inductive Reads : Str → Value → Prop
  | null : Reads ['n', 'u', 'l', 'l'] .null
  | true : Reads ['t', 'r', 'u', 'e'] (.bool true)
  | false : Reads ['f', 'a', 'l', 's', 'e'] (.bool false)
  | num {t : Str} {n : Nat} : Number t n → Reads t (.num n)
  | str {t s : Str} : Chars t s → Reads ('"' :: (t ++ ['"'])) (.str s)
  | emptyArr {w : Str} : Blank w → Reads ('[' :: (w ++ [']'])) (.arr [])
  | arr {t : Str} {l : List Value} : Elements t l → Reads ('[' :: (t ++ [']'])) (.arr l)
  | emptyObj {w : Str} : Blank w → Reads ('{' :: (w ++ ['}'])) (.obj [])
  | obj {t : Str} {l : List (Str × Value)} : Members t l → Reads ('{' :: (t ++ ['}'])) (.obj l)

inductive Elements : Str → List Value → Prop
  | one {w t w' : Str} {v : Value} : Blank w → Reads t v → Blank w' → Elements (w ++ (t ++ w')) [v]
  | more {w t w' r : Str} {v : Value} {l : List Value} : Blank w → Reads t v → Blank w' → Elements r l →
      Elements (w ++ (t ++ (w' ++ ',' :: r))) (v :: l)

inductive Member : Str → Str × Value → Prop
  | mk {w k k' w' w₂ t w₃ : Str} {v : Value} : Blank w → Chars k k' → Blank w' → Blank w₂ → Reads t v → Blank w₃ →
      Member (w ++ '"' :: (k ++ '"' :: (w' ++ ':' :: (w₂ ++ (t ++ w₃))))) (k', v)

inductive Members : Str → List (Str × Value) → Prop
  | one {t : Str} {p : Str × Value} : Member t p → Members t [p]
  | more {t r : Str} {p : Str × Value} {l : List (Str × Value)} : Member t p → Members r l → Members (t ++ ',' :: r) (p :: l)

end

/-! ## The value for an error -/

/-- Where the error is: a file, or the standard input. -/
def sourceValue : StreamName → Value
  | .file p => .obj [("file".toList, .str p)]
  | .stdio => .str "stdio".toList

def categoryName : ErrorCategory → Str
  | .syntax => "syntax".toList
  | .semantic => "semantic".toList
  | .internal => "internal".toList
  | .argument => "argument".toList
  | .hidden => "hidden".toList

def messageValue : Option Str → Value
  | some m => .str m
  | none => .null

/-- The members are the fields; those that are absent are left out, except for the message. -/
def entryValue (e : ErrorEntry) : Value :=
  .obj ([("category".toList, .str (categoryName e.category))] ++
    (e.sourceName.map fun s => ("sourceName".toList, sourceValue s)).toList ++
    (e.location.map fun r => ("location".toList, Value.obj [("start".toList, .num r.1), ("end".toList, .num r.2)])).toList ++
    (e.expected.map fun l => ("expected".toList, Value.arr (l.map .str))).toList ++
    [("message".toList, messageValue e.message)])

end Mty.Json
