import Verif.Model.Process

/-! Helpers of scheme/util.py.  Simplification: dicts are trees, so a nested dict that is shared
between several places is not represented. -/

namespace Scheme

mutual
/-- The value stored by one iteration of recursive_merge (util.py:144-148): `source` is what the
original holds under the key. -/
def mergeVal : (value : Val) → (source : Option Val) → Val
  | .dict w, some (.dict s) => .dict (mergeInto w s)
  | v, _ => v
/-- recursive_merge(original, addition) (util.py:142-149), addition first. -/
def mergeInto : (addition original : List (Val × Val)) → List (Val × Val)
  | [], o => o
  | (k, v) :: r, o => mergeInto r (dictSet o k (mergeVal v (dictGet o k)))
end

/-- The loop of traverse_to_key (util.py:253-262) over the segments of the path. -/
def traverseSegs : Val → List Str → Except PyErr Val
  | v, [] => .ok v
  | .dict d, k :: r => match dictGet d (.str k) with
    | some x => traverseSegs x r
    | none => .error .keyError
  | _, _ :: _ => .error .typeError

/-- traverse_to_key (util.py:252-262) -/
def traverseToKey (v : Val) (path : Str) : Except PyErr Val := traverseSegs v (splitOn '.' path)

/-- set_nested_value over the segments of the path (util.py:238-250): the subject afterwards. -/
def setSegs : Val → List Str → Val → Except PyErr Val
  | s, [], _ => .ok s
  | .dict d, [last], v => .ok (.dict (dictSet d (.str last) v))
  | .dict d, k :: k' :: r, v => match dictGet d (.str k) with
    | some x => (setSegs x (k' :: r) v).map fun y => .dict (dictSet d (.str k) y)
    | none => .error .keyError
  | _, _ :: _, _ => .error .typeError

/-- set_nested_value (util.py:234-250) -/
def setNestedValue (subject : Val) (path : Str) (v : Val) : Except PyErr Val :=
  setSegs subject (splitOn '.' path) v

/-- `re.sub(r'\s+', ' ', value)` (util.py:121); the flag says whether the previous character
belonged to a run already replaced. -/
def collapseWs (u : Chars) : Bool → Str → Str
  | _, [] => []
  | inRun, c :: r =>
    if isSpace u c then
      if inRun then collapseWs u true r else ' ' :: collapseWs u true r
    else c :: collapseWs u false r

/-- minimize_string (util.py:120-121) -/
def minimizeString (u : Chars) (s : Str) : Str := stripBy (· == ' ') (collapseWs u false s)

/-- The `indent` argument of indent: a text or a number of blanks (util.py:107-108). -/
inductive IndentArg
  | text (s : Str)
  | width (i : Int)

def IndentArg.str : IndentArg → Str
  | .text s => s
  | .width i => List.replicate i.toNat ' '

/-- indent (util.py:106-118) -/
def indentText (text : Str) (indent : IndentArg) (first : Bool) : Str :=
  match splitOn '\n' text with
  | [] => []
  | l :: r =>
    if first then joinStr c!"\n" ((l :: r).map (indent.str ++ ·))
    else joinStr c!"\n" (l :: r.map (indent.str ++ ·))

/-- A word reversed, without the newline before which `$` also matches. -/
def wordCore (word : Str) : Str × Bool :=
  match word.reverse with
  | '\n' :: r => (r, true)
  | r => (r, false)

/-- `target.sub(replacement, word)` for a target `xyz$`: the ending is replaced; `r` is the reversed
rest of the word. -/
def replaceEnd (r : Str) (nl : Bool) (repl : Str) : Str :=
  r.reverse ++ repl ++ (if nl then c!"\n" else [])

/-- `re.sub('$', 'es', word)`: `$` matches before a final newline and at the end. -/
def appendEs (r : Str) (nl : Bool) : Str :=
  r.reverse ++ c!"es" ++ (if nl then c!"\nes" else [])

/-- pluralize with the default rules (util.py:123-140), for a quantity other than 1. -/
def pluralForm (word : Str) : Str :=
  match wordCore word with
  | ('e' :: 'f' :: 'i' :: r, nl) => replaceEnd r nl c!"ives"
  | ('u' :: 'a' :: 'e' :: r, nl) => replaceEnd r nl c!"eaux"
  | ('f' :: 'l' :: r, nl) => replaceEnd r nl c!"lves"
  | (x :: r, nl) =>
    if x = 's' ∨ x = 'x' ∨ x = 'z' then appendEs (x :: r) nl
    else if x = 'h' then
      match r with
      | y :: _ => if y ∈ c!"aeioudgkprt" then word ++ c!"s" else appendEs (x :: r) nl
      | [] => word ++ c!"s"
    else if x = 'y' then
      match r with
      | y :: r' => if y ∉ c!"aeiou" ∨ y = 'u' ∧ r'.head? = some 'q' then replaceEnd r nl c!"ies" else word ++ c!"s"
      | [] => word ++ c!"s"
    else word ++ c!"s"
  | ([], _) => word ++ c!"s"

/-- pluralize(word, quantity) (util.py:132-140) -/
def pluralize (word : Str) (quantity : Option Int) : Str :=
  if quantity = some 1 then word else pluralForm word

end Scheme
