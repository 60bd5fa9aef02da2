import Verif.Spec.Doc

/-! Reading the text of a documentation. -/

namespace Scheme

/-- A block as it stands in the text: how deep, the text after `.. field::`, and its options. -/
structure ReadBlock where
  depth : Nat
  head : Str
  options : List (Str × Str)
deriving DecidableEq

/-- The number of spaces a line begins with. -/
def spacesBefore (l : Str) : Nat := (l.takeWhile (· == ' ')).length

/-- A line that begins a block. -/
def readHead (l : Str) : Option ReadBlock :=
  let r := l.drop (spacesBefore l)
  if r.take 11 = c!".. field:: " then some ⟨spacesBefore l / 4, r.drop 11, []⟩ else none

/-- A line that begins an option of a block, one level deeper. -/
def readOption (depth : Nat) (l : Str) : Option (Str × Str) :=
  match l.drop (4 * (depth + 1)) with
  | ':' :: r => some (r.takeWhile (· != ':'), r.drop ((r.takeWhile (· != ':')).length + 2))
  | _ => none

/-- A further line of the last option. -/
def moreOf (l : Str) : List (Str × Str) → List (Str × Str)
  | [] => []
  | [(k, v)] => [(k, v ++ c!"\n" ++ l)]
  | o :: r => o :: moreOf l r

/-- The blocks in these lines, in order; `open_` is the block whose options are being read.  The first blank line ends the
options of a block, as docutils has it. -/
def readLines (blank : Str → Bool) : Option ReadBlock → List Str → List ReadBlock
  | none, [] => []
  | some b, [] => [b]
  | none, l :: r => readLines blank (readHead l) r
  | some b, l :: r =>
    if blank l then b :: readLines blank none r
    else match readOption b.depth l with
      | some o => readLines blank (some { b with options := b.options ++ [o] }) r
      | none => readLines blank (some { b with options := moreOf (l.drop (4 * (b.depth + 2))) b.options }) r

mutual
/-- The blocks of a documentation, each before the blocks within it. -/
def blocksOf (depth : Nat) : DocNode → List ReadBlock
  | .block _ args params content => ⟨depth, joinStr c!" " args, params⟩ :: blocksOfAll (depth + 1) content
  | .text _ => []
def blocksOfAll (depth : Nat) : List DocNode → List ReadBlock
  | [] => []
  | b :: r => blocksOf depth b ++ blocksOfAll depth r
end

/-- A text that stays on its line. -/
def SingleLine (s : Str) : Prop := '\n' ∉ s

/-- The value of an option: none of its lines but the first is blank. -/
def NoBlankLine (blank : Str → Bool) (s : Str) : Prop := ∀ l ∈ (splitOn '\n' s).tail, ∀ p, blank (List.replicate p ' ' ++ l) = false

/-- Blocks only, as the generator makes them; names of options without colons, values without blank lines. -/
inductive Legible (blank : Str → Bool) : DocNode → Prop
  | block {name params content} : SingleLine name → (∀ p ∈ params, ':' ∉ p.1 ∧ SingleLine p.1 ∧ NoBlankLine blank p.2) →
      (∀ b ∈ content, Legible blank b) → Legible blank (.block c!"field" [name] params content)

/-- What is blank: lines of white space only. -/
structure Blank (blank : Str → Bool) : Prop where
  nil : blank [] = true
  spaces : ∀ (n : Nat) (s : Str), blank (List.replicate n ' ' ++ s) = blank s
  colon : ∀ s, blank (':' :: s) = false

/-- Names have one line, values no blank line but perhaps the first. -/
inductive FitsLines (blank : Str → Bool) : DocNode → Prop
  | block {directive name params content} : SingleLine name → (∀ p ∈ params, NoBlankLine blank p.2) →
      (∀ b ∈ content, FitsLines blank b) → FitsLines blank (.block directive [name] params content)

/-- An option the directive has, without a value if it is a flag; or `notes`. -/
def KnownOption (p : Str × Str) : Prop :=
  (∃ flag, (p.1, flag) ∈ docOptionSpec ∧ (flag = true → p.2 = [])) ∨ p.1 = c!"notes"

/-- All blocks are about fields, with one name, and all their options are like this. -/
inductive AllBlocks (P : Str × Str → Prop) : DocNode → Prop
  | block {name params content} : (∀ p ∈ params, P p) → (∀ b ∈ content, AllBlocks P b) →
      AllBlocks P (.block c!"field" [name] params content)

mutual
/-- The text of an element. -/
def shownElem : DocElem → Str
  | .text s => s
  | .el _ _ children => shownAll children
def shownAll : List DocElem → Str
  | [] => []
  | e :: r => shownElem e ++ shownAll r
end

/-- What is shown beside the name of a field. -/
def signatureParts (o : List (Str × Str)) : List Str :=
  let given (k : Str) (show_ : Str → Str) : List Str := if (optGet o k).isEmpty then [] else [show_ (optGet o k)]
  let aspects (t : Str) : Str := (t.dropWhile (· != ';')).tail
  given c!"type" id ++
  given c!"subtype" (fun t => c!"<" ++ t.takeWhile (· != ';') ++ (if (aspects t).isEmpty then [] else ' ' :: aspects t) ++ c!">") ++
  given c!"key" (fun t => c!"key=" ++ t) ++
  (if (optGet o c!"constant").isEmpty then given c!"default" (fun t => c!"default=" ++ t)
    else [c!"constant=" ++ optGet o c!"constant"]) ++
  given c!"constraints" id ++
  (let flags := [c!"required", c!"nonnull", c!"ignore_null", c!"polymorphic", c!"unique"].filter (optHas o)
   if flags.isEmpty then [] else [joinStr c!" " flags]) ++
  given c!"title" (fun t => c!"\"" ++ t ++ c!"\"")

end Scheme
