import Verif.Spec.Json
import Verif.Spec.Query

/-! The grammar of JSON documents as `json.loads` reads them, and the values they stand for. -/

namespace Scheme.Json
open Scheme

/-- The characters written as a backslash and one letter. -/
inductive JEscape : Char → Char → Prop
  | quote : JEscape '"' '"'
  | backslash : JEscape '\\' '\\'
  | slash : JEscape '/' '/'
  | backspace : JEscape 'b' (Char.ofNat 8)
  | formfeed : JEscape 'f' (Char.ofNat 12)
  | newline : JEscape 'n' (Char.ofNat 10)
  | return : JEscape 'r' (Char.ofNat 13)
  | tab : JEscape 't' (Char.ofNat 9)

/-- Four hexadecimal digits of either case. -/
inductive JHex : Str → Nat → Prop
  | mk {a b c d w x y z} : HexDigit a w → HexDigit b x → HexDigit c y → HexDigit d z →
      JHex [a, b, c, d] (w * 4096 + x * 256 + y * 16 + z)

/-- `JBody s t`: between quotation marks, `t` stands for the text `s`. -/
inductive JBody : Str → Str → Prop
  | nil : JBody [] []
  | self {c s t} : c ≠ '"' → c ≠ '\\' → 32 ≤ c.toNat → JBody s t → JBody (c :: s) (c :: t)
  | escape {e c s t} : JEscape e c → JBody s t → JBody (c :: s) ('\\' :: e :: t)
  | hex {h n s t} : JHex h n → n < 0xd800 ∨ 0xe000 ≤ n → JBody s t → JBody (Char.ofNat n :: s) ('\\' :: 'u' :: (h ++ t))
  | pair {g h n m s t} : JHex g n → JHex h m → n < 1024 + 0xd800 ∧ 0xd800 ≤ n → m < 1024 + 0xdc00 ∧ 0xdc00 ≤ m → JBody s t →
      JBody (Char.ofNat (0x10000 + (n - 0xd800) * 1024 + (m - 0xdc00)) :: s) ('\\' :: 'u' :: (g ++ ('\\' :: 'u' :: (h ++ t))))

/-- Blanks, tabs and line ends. -/
def JSpace (s : Str) : Prop := ∀ c ∈ s, c = ' ' ∨ c = '\t' ∨ c = '\n' ∨ c = '\r'

/-- The number written by decimal digits. -/
def digitsValue (ds : Str) : Nat := ds.foldl (fun n c => n * 10 + (c.toNat - 48)) 0

/-- The names in order of their first appearance. -/
def firsts : List Str → List Str
  | [] => []
  | k :: r => k :: (firsts r).filter (· ≠ k)

/-- The value given last for a name. -/
def lastValue (k : Str) : List (Str × Val) → Option Val
  | [] => none
  | (k', v) :: r => (lastValue k r).or (if k' = k then some v else none)

/-- The dict of the given entries: of several for the same name the last one counts, at the place of the first one. -/
def collected (ps : List (Str × Val)) : Val :=
  .dict ((firsts (ps.map (·.1))).map fun k => (.str k, (lastValue k ps).getD .none))

mutual
/-- `JText env t v`: the text `t` stands for the value `v`. -/
inductive JText (env : Env) : Str → Val → Prop
  | null : JText env c!"null" .none
  | true : JText env c!"true" (.bool true)
  | false : JText env c!"false" (.bool false)
  | nan : JText env c!"NaN" (.float .nan)
  | infinity : JText env c!"Infinity" (.float (.inf false))
  | minusInfinity : JText env c!"-Infinity" (.float (.inf true))
  | natural {ds} : ds = c!"0" ∨ (Digits ds ∧ ds.head? ≠ some '0') → JText env ds (.int (digitsValue ds))
  | negative {ds} : ds = c!"0" ∨ (Digits ds ∧ ds.head? ≠ some '0') → JText env ('-' :: ds) (.int (-(digitsValue ds : Int)))
  | real {t x} : RealText t → env.floatOfStr t = some x → JText env t (.float x)
  | text {s t} : JBody s t → JText env ('"' :: (t ++ ['"'])) (.str s)
  | emptyList {w} : JSpace w → JText env ('[' :: (w ++ [']'])) (.list [])
  | list {w t l} : JSpace w → JItems env t l → JText env ('[' :: (w ++ (t ++ [']']))) (.list l)
  | emptyDict {w} : JSpace w → JText env ('{' :: (w ++ ['}'])) (.dict [])
  | dict {w t ps} : JSpace w → JPairs env t ps → JText env ('{' :: (w ++ (t ++ ['}']))) (collected ps)
/-- Values separated by commas, with white space behind each and before all but the first. -/
inductive JItems (env : Env) : Str → List Val → Prop
  | one {t v w} : JText env t v → JSpace w → JItems env (t ++ w) [v]
  | more {t v w w' r l} : JText env t v → JSpace w → JSpace w' → JItems env r l →
      JItems env (t ++ (w ++ (',' :: (w' ++ r)))) (v :: l)
/-- Entries separated by commas, likewise. -/
inductive JPairs (env : Env) : Str → List (Str × Val) → Prop
  | one {k b w w' t v w''} : JBody k b → JSpace w → JSpace w' → JText env t v → JSpace w'' →
      JPairs env ('"' :: (b ++ ('"' :: (w ++ (':' :: (w' ++ (t ++ w''))))))) [(k, v)]
  | more {k b w w' t v w'' w3 r l} : JBody k b → JSpace w → JSpace w' → JText env t v → JSpace w'' → JSpace w3 → JPairs env r l →
      JPairs env ('"' :: (b ++ ('"' :: (w ++ (':' :: (w' ++ (t ++ (w'' ++ (',' :: (w3 ++ r)))))))))) ((k, v) :: l)
end

/-- A document: one value, white space around it. -/
def JDocument (env : Env) (s : Str) (v : Val) : Prop := ∃ w t w', s = w ++ (t ++ w') ∧ JSpace w ∧ JSpace w' ∧ JText env t v

end Scheme.Json
