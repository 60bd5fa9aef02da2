import Verif.Spec.DocText
import Verif.Props.Doc
import Verif.Props.Strings
import Verif.Props.ErrText
import Verif.Props.UrlEncoded
import Verif.Props.Yaml

/-! C78: the text of a documentation. -/

namespace Scheme

variable {blank : Str → Bool}

theorem spaces_takeWhile (n : Nat) {c : Char} (hc : c ≠ ' ') (s : Str) :
    spacesBefore (List.replicate n ' ' ++ c :: s) = n := by
  unfold spacesBefore
  induction n with
  | zero => simp [List.takeWhile_cons, hc]
  | succ n ih => simp only [List.replicate_succ, List.cons_append, List.takeWhile_cons]; simpa using ih

theorem drop_prefix (n : Nat) (s : Str) : (List.replicate n ' ' ++ s).drop n = s := by
  have := List.drop_left (l₁ := List.replicate n ' ') (l₂ := s)
  rwa [List.length_replicate] at this

theorem readHead_line (depth : Nat) (name : Str) :
    readHead (docPrefix depth ++ c!".. " ++ c!"field" ++ c!":: " ++ name) = some ⟨depth, name, []⟩ := by
  have h : docPrefix depth ++ c!".. " ++ c!"field" ++ c!":: " ++ name = List.replicate (4 * depth) ' ' ++ '.' :: (c!". field:: " ++ name) := by
    simp [docPrefix]
  rw [h]
  simp only [readHead, spaces_takeWhile (4 * depth) (by decide : '.' ≠ ' '), drop_prefix]
  rw [if_pos (by rfl)]
  simp

theorem readHead_nil : readHead [] = none := rfl

theorem takeWhile_colon {k : Str} (h : ':' ∉ k) (v : Str) : (k ++ ':' :: v).takeWhile (· != ':') = k := by
  induction k with
  | nil => simp
  | cons c r ih =>
    rw [List.mem_cons, not_or] at h
    have : (c != ':') = true := by simpa using fun e => h.1 e.symm
    simp [List.takeWhile_cons, this, ih h.2]

theorem readOption_line (depth : Nat) {k : Str} (hk : ':' ∉ k) (v : Str) :
    readOption depth (docPrefix (depth + 1) ++ c!":" ++ k ++ c!": " ++ v) = some (k, v) := by
  have h : docPrefix (depth + 1) ++ c!":" ++ k ++ c!": " ++ v = List.replicate (4 * (depth + 1)) ' ' ++ ':' :: (k ++ ':' :: (' ' :: v)) := by
    simp [docPrefix]
  rw [h, readOption, drop_prefix]
  simp only [takeWhile_colon hk]
  have : (k ++ ':' :: ' ' :: v).drop (k.length + 2) = v := by
    rw [← List.drop_drop, List.drop_left]; rfl
  rw [this]

theorem readOption_more (depth : Nat) (v : Str) : readOption depth (docPrefix (depth + 1) ++ c!"    " ++ v) = none := by
  rw [List.append_assoc, docPrefix, readOption, drop_prefix]; rfl

theorem more_line (depth : Nat) (v : Str) : (docPrefix (depth + 1) ++ c!"    " ++ v).drop (4 * (depth + 2)) = v := by
  have h : docPrefix (depth + 1) ++ c!"    " = List.replicate (4 * (depth + 2)) ' ' := by
    rw [docPrefix, show c!"    " = List.replicate 4 ' ' from rfl, List.replicate_append_replicate]
    congr 1
  rw [h, drop_prefix]

theorem moreOf_snoc (l : Str) (os : List (Str × Str)) (k v : Str) : moreOf l (os ++ [(k, v)]) = os ++ [(k, v ++ c!"\n" ++ l)] := by
  induction os with
  | nil => rfl
  | cons o r ih =>
    cases hr : r ++ [(k, v)] with
    | nil => simp at hr
    | cons x y =>
      rw [List.cons_append, hr, show moreOf l (o :: x :: y) = o :: moreOf l (x :: y) by simp [moreOf], ← hr, ih]; rfl

/-- The lines of an option. -/
def optionLines (depth : Nat) (p : Str × Str) : List Str :=
  match splitOn '\n' p.2 with
  | [] => []
  | a :: r => (docPrefix (depth + 1) ++ c!":" ++ p.1 ++ c!": " ++ a) :: r.map fun v => docPrefix (depth + 1) ++ c!"    " ++ v

theorem blank_prefix (hb : Blank blank) (depth : Nat) (s : Str) : blank (docPrefix depth ++ s) = blank s := hb.spaces _ _

theorem read_more (hb : Blank blank) (d : Nat) (h : Str) (os : List (Str × Str)) (k v : Str) (ls rest : List Str)
    (hl : ∀ l ∈ ls, ∀ p, blank (List.replicate p ' ' ++ l) = false) :
    readLines blank (some ⟨d, h, os ++ [(k, v)]⟩) (ls.map (fun v => docPrefix (d + 1) ++ c!"    " ++ v) ++ rest) =
      readLines blank (some ⟨d, h, os ++ [(k, joinStr c!"\n" (v :: ls))]⟩) rest := by
  induction ls generalizing v with
  | nil => rfl
  | cons l r ih =>
    rw [List.map_cons, List.cons_append, readLines]
    have : blank (docPrefix (d + 1) ++ c!"    " ++ l) = false := by
      rw [List.append_assoc, blank_prefix hb]
      exact hl l (List.mem_cons_self ..) 4
    rw [this, readOption_more, more_line]
    simp only [Bool.false_eq_true, if_false]
    rw [moreOf_snoc, ih _ fun l hl' => hl l (List.mem_cons_of_mem _ hl')]
    congr 5
    cases r with
    | nil => simp [joinStr]
    | cons a r => rw [joinStr_cons_ne (l := l :: a :: r) (by simp), joinStr_cons_ne (l := a :: r) (by simp), joinStr_cons_ne (l := a :: r) (by simp)]; simp

theorem read_option (hb : Blank blank) (d : Nat) (h : Str) (os : List (Str × Str)) (p : Str × Str) (hp : ':' ∉ p.1)
    (hn : NoBlankLine blank p.2) (rest : List Str) :
    readLines blank (some ⟨d, h, os⟩) (optionLines d p ++ rest) = readLines blank (some ⟨d, h, os ++ [p]⟩) rest := by
  obtain ⟨k, v⟩ := p
  unfold NoBlankLine at hn
  have hv := join_splitOn '\n' v
  cases hs : splitOn '\n' v with
  | nil => exact absurd hs (splitOn_ne_nil _ _)
  | cons a r =>
    simp only [hs] at hn
    rw [hs] at hv
    simp only [optionLines, hs, List.cons_append]
    rw [readLines]
    have : blank (docPrefix (d + 1) ++ c!":" ++ k ++ c!": " ++ a) = false := by
      rw [List.append_assoc, List.append_assoc, List.append_assoc, blank_prefix hb]; exact hb.colon _
    rw [this, readOption_line d hp]
    simp only [Bool.false_eq_true, if_false]
    rw [read_more hb d h os k a r rest hn, show c!"\n" = ['\n'] from rfl, hv]

theorem read_options (hb : Blank blank) (d : Nat) (h : Str) (os ps : List (Str × Str))
    (hp : ∀ p ∈ ps, ':' ∉ p.1 ∧ SingleLine p.1 ∧ NoBlankLine blank p.2) (rest : List Str) :
    readLines blank (some ⟨d, h, os⟩) (ps.flatMap (optionLines d) ++ rest) = readLines blank (some ⟨d, h, os ++ ps⟩) rest := by
  induction ps generalizing os with
  | nil => simp
  | cons p r ih =>
    rw [List.flatMap_cons, List.append_assoc, read_option hb d h os p (hp p (List.mem_cons_self ..)).1 (hp p (List.mem_cons_self ..)).2.2,
      ih _ fun p hp' => hp p (List.mem_cons_of_mem _ hp')]
    simp

theorem splitOn_joins (ls : List Str) (hne : ls ≠ []) : splitOn '\n' (joinStr c!"\n" ls) = ls.flatMap (splitOn '\n') := by
  induction ls with
  | nil => exact absurd rfl hne
  | cons a r ih =>
    cases r with
    | nil => simp [joinStr]
    | cons b r =>
      rw [joinStr_cons_ne (by simp), List.append_assoc]
      show splitOn '\n' (a ++ '\n' :: joinStr c!"\n" (b :: r)) = _
      rw [splitOn_nl, ih (by simp), List.flatMap_cons (x := a)]

theorem docPrefix_nl (d : Nat) : '\n' ∉ docPrefix d := by
  rw [docPrefix, List.mem_replicate]; simp

theorem option_split (d : Nat) (p : Str × Str) (hp : SingleLine p.1) : splitOn '\n' (renderParam d p) = optionLines d p := by
  obtain ⟨k, v⟩ := p
  unfold renderParam optionLines
  simp only
  have hpart : ∀ w ∈ splitOn '\n' v, '\n' ∉ w := fun w hw => splitOn_parts hw
  cases hs : splitOn '\n' v with
  | nil => exact absurd hs (splitOn_ne_nil _ _)
  | cons a r =>
    rw [hs] at hpart
    simp only
    have hx : docPrefix (d + 1) ++ c!":" ++ k ++ c!": " ++ joinStr c!"\n" (a :: r.map fun v => docPrefix (d + 1) ++ c!"    " ++ v) =
        joinStr ['\n'] ((docPrefix (d + 1) ++ c!":" ++ k ++ c!": " ++ a) :: r.map fun v => docPrefix (d + 1) ++ c!"    " ++ v) := by
      cases r with
      | nil => simp [joinStr]
      | cons b r => rw [joinStr_cons_ne (by simp), joinStr_cons_ne (by simp)]; simp
    have hpre := docPrefix_nl (d + 1)
    have hk : '\n' ∉ k := hp
    rw [hx, splitOn_join (by simp)]
    intro w hw
    rcases List.mem_cons.1 hw with rfl | hw
    · have := hpart a (List.mem_cons_self ..)
      simp [hpre, hk, this]
    · obtain ⟨x, hx, rfl⟩ := List.mem_map.1 hw
      have := hpart x (List.mem_cons_of_mem _ hx)
      simp [hpre, this]

theorem options_split (d : Nat) (ps : List (Str × Str)) (hp : ∀ p ∈ ps, SingleLine p.1) (hne : ps ≠ []) :
    splitOn '\n' (joinStr c!"\n" (ps.map (renderParam d))) = ps.flatMap (optionLines d) := by
  rw [splitOn_joins _ (by simpa using hne), List.flatMap_map]
  clear hne
  induction ps with
  | nil => rfl
  | cons p r ih =>
    rw [List.flatMap_cons, List.flatMap_cons, option_split d p (hp p (List.mem_cons_self ..)), ih fun p h => hp p (List.mem_cons_of_mem _ h)]

mutual
/-- The lines of a block. -/
theorem read_node (hb : Blank blank) (wrap : Str → Str → List Str) (d : Nat) (b : DocNode) (hl : Legible blank b) (rest : List Str) :
    readLines blank none (splitOn '\n' (renderNode wrap d b) ++ rest) = blocksOf d b ++ readLines blank none rest := by
  match b, hl with
  | .block _ _ ps content, .block (name := name) h1 h2 h3 =>
    have hsp : splitOn '\n' (renderNode wrap d (.block c!"field" [name] ps content)) =
        [[], docPrefix d ++ c!".. " ++ c!"field" ++ c!":: " ++ name] ++
          (splitOn '\n' (joinStr c!"\n" (ps.map (renderParam d))) ++ ([] :: splitOn '\n' (joinStr c!"\n\n" (renderNodes wrap (d + 1) content)))) := by
      rw [renderNode]
      have e : c!"\n" ++ docPrefix d ++ c!".. " ++ c!"field" ++ c!":: " ++ joinStr c!" " [name] ++ c!"\n" ++
          joinStr c!"\n" (ps.map (renderParam d)) ++ c!"\n\n" ++ joinStr c!"\n\n" (renderNodes wrap (d + 1) content) =
          [] ++ '\n' :: ((docPrefix d ++ c!".. " ++ c!"field" ++ c!":: " ++ name) ++ '\n' ::
            (joinStr c!"\n" (ps.map (renderParam d)) ++ '\n' :: ([] ++ '\n' :: joinStr c!"\n\n" (renderNodes wrap (d + 1) content)))) := by
        simp [joinStr]
      have hn : '\n' ∉ docPrefix d ++ c!".. " ++ c!"field" ++ c!":: " ++ name := by
        have hpre := docPrefix_nl d
        have : '\n' ∉ name := h1
        simp [hpre, this]
      rw [e, splitOn_nl, splitOn_nl, splitOn_nl, splitOn_nl, splitOn_none hn]
      rfl
    have hc := read_nodes hb wrap (d + 1) content h3 rest
    rw [hsp]
    show readLines blank none ([] :: (docPrefix d ++ c!".. " ++ c!"field" ++ c!":: " ++ name) :: ((splitOn '\n' _ ++ [] :: _) ++ rest)) = _
    rw [readLines, readHead_nil, readLines, readHead_line, List.append_assoc]
    have close : ∀ os, readLines blank (some ⟨d, name, os⟩) ([] :: (splitOn '\n' (joinStr c!"\n\n" (renderNodes wrap (d + 1) content)) ++ rest)) =
        ⟨d, name, os⟩ :: (blocksOfAll (d + 1) content ++ readLines blank none rest) := by
      intro os
      rw [readLines, hb.nil, if_pos rfl, hc]
    by_cases hps : ps = []
    · subst hps
      show readLines blank (some ⟨d, name, []⟩) ([] :: ([] :: (splitOn '\n' _ ++ rest))) = _
      rw [readLines, hb.nil, if_pos rfl, readLines, readHead_nil, hc]
      rfl
    · rw [options_split d ps (fun p hp => (h2 p hp).2.1) hps, read_options hb d name [] ps h2, List.nil_append, List.cons_append, close]
      rfl
/-- The lines of several blocks. -/
theorem read_nodes (hb : Blank blank) (wrap : Str → Str → List Str) (d : Nat) (l : List DocNode) (hl : ∀ b ∈ l, Legible blank b)
    (rest : List Str) :
    readLines blank none (splitOn '\n' (joinStr c!"\n\n" (renderNodes wrap d l)) ++ rest) = blocksOfAll d l ++ readLines blank none rest := by
  match l with
  | [] => rfl
  | [b] =>
    rw [renderNodes, renderNodes, joinStr, read_node hb wrap d b (hl b (List.mem_cons_self ..)), blocksOfAll, blocksOfAll, List.append_nil]
  | b :: b' :: r =>
    have e : joinStr c!"\n\n" (renderNodes wrap d (b :: b' :: r)) =
        renderNode wrap d b ++ '\n' :: ([] ++ '\n' :: joinStr c!"\n\n" (renderNodes wrap d (b' :: r))) := by
      rw [renderNodes, joinStr_cons_ne (by simp [renderNodes])]; simp
    rw [e, splitOn_nl, splitOn_nl, List.append_assoc, List.append_assoc, read_node hb wrap d b (hl b (List.mem_cons_self ..)), blocksOfAll,
      List.append_assoc]
    congr 1
    show readLines blank none ([] :: (splitOn '\n' _ ++ rest)) = _
    rw [readLines, readHead_nil, read_nodes hb wrap d (b' :: r) (fun x hx => hl x (List.mem_cons_of_mem _ hx)) rest]
end

/-! ### the tree is determined by the blocks -/

/-- Nothing follows, or something less deep. -/
def Shallow (d : Nat) (r : List ReadBlock) : Prop := ∀ b, r.head? = some b → b.depth < d

theorem blocksOf_head (d : Nat) (b : DocNode) (hl : Legible blank b) : ∃ x r, blocksOf d b = x :: r ∧ x.depth = d := by
  cases hl with
  | block => exact ⟨_, _, rfl, rfl⟩

mutual
theorem blocksOf_inj (d : Nat) (b b' : DocNode) (hl : Legible blank b) (hl' : Legible blank b') (r r' : List ReadBlock)
    (hr : Shallow (d + 1) r) (hr' : Shallow (d + 1) r') (h : blocksOf d b ++ r = blocksOf d b' ++ r') : b = b' ∧ r = r' := by
  match b, b', hl, hl' with
  | .block _ _ ps content, .block _ _ ps' content', .block (name := name) h1 h2 h3, .block (name := name') h1' h2' h3' =>
    simp only [blocksOf, List.cons_append, List.cons.injEq, ReadBlock.mk.injEq] at h
    obtain ⟨⟨_, hn, rfl⟩, h⟩ := h
    obtain ⟨rfl, rfl⟩ := blocksOfAll_inj (d + 1) content content' h3 h3' r r' hr hr' h
    simp only [joinStr] at hn
    subst hn
    exact ⟨rfl, rfl⟩
theorem blocksOfAll_inj (d : Nat) (l l' : List DocNode) (hl : ∀ b ∈ l, Legible blank b) (hl' : ∀ b ∈ l', Legible blank b)
    (r r' : List ReadBlock) (hr : Shallow d r) (hr' : Shallow d r') (h : blocksOfAll d l ++ r = blocksOfAll d l' ++ r') :
    l = l' ∧ r = r' := by
  match l, l' with
  | [], [] => exact ⟨rfl, h⟩
  | [], b :: l =>
    obtain ⟨x, y, h1, h2⟩ := blocksOf_head d b (hl' b (List.mem_cons_self ..))
    simp only [blocksOfAll, h1, List.nil_append, List.cons_append] at h
    subst h
    exact absurd (hr x rfl) (by omega)
  | b :: l, [] =>
    obtain ⟨x, y, h1, h2⟩ := blocksOf_head d b (hl b (List.mem_cons_self ..))
    simp only [blocksOfAll, h1, List.nil_append, List.cons_append] at h
    subst h
    exact absurd (hr' x rfl) (by omega)
  | b :: l, b' :: l' =>
    simp only [blocksOfAll, List.append_assoc] at h
    have follow : ∀ (l : List DocNode) (r : List ReadBlock), (∀ b ∈ l, Legible blank b) → Shallow d r →
        Shallow (d + 1) (blocksOfAll d l ++ r) := by
      intro l r hl hr
      cases l with
      | nil => exact fun b hb => Nat.lt_succ_of_lt (hr b hb)
      | cons b l =>
        obtain ⟨x, y, h1, h2⟩ := blocksOf_head d b (hl b (List.mem_cons_self ..))
        intro z hz
        simp only [blocksOfAll, h1, List.cons_append, List.head?_cons, Option.some.injEq] at hz
        subst hz; omega
    have hlt := fun b h => hl b (List.mem_cons_of_mem _ h)
    have hlt' := fun b h => hl' b (List.mem_cons_of_mem _ h)
    obtain ⟨hbb, h'⟩ := blocksOf_inj d b b' (hl b (List.mem_cons_self ..)) (hl' b' (List.mem_cons_self ..)) _ _
      (follow l r hlt hr) (follow l' r' hlt' hr') h
    obtain ⟨rfl, h''⟩ := blocksOfAll_inj d l l' hlt hlt' r r' hr hr' h'
    exact ⟨by rw [hbb], h''⟩
end

/-! ### what the generator writes -/

theorem known_of {k v : Str} (h : (k, false) ∈ docOptionSpec) : KnownOption (k, v) := .inl ⟨false, h, fun h => by cases h⟩
theorem known_flag {k : Str} (h : (k, true) ∈ docOptionSpec) : KnownOption (k, []) := .inl ⟨true, h, fun _ => rfl⟩

theorem Written.known {text : Val → Str} {k : Str} {v : Val} {o : List (Str × Str)} (h : Written text k v o)
    (hk : (k, false) ∈ docOptionSpec) : ∀ p ∈ o, KnownOption p := by
  cases h <;> intro p hp <;> simp only [List.mem_singleton, List.not_mem_nil] at hp
  subst hp; exact known_of hk

theorem WrittenFull.known {text : Val → Str} {k : Str} {v : Val} {o : List (Str × Str)} (h : WrittenFull text k v o)
    (hk : (k, false) ∈ docOptionSpec ∨ k = c!"notes") : ∀ p ∈ o, KnownOption p := by
  cases h <;> intro p hp <;> simp only [List.mem_singleton, List.not_mem_nil] at hp
  subst hp
  rcases hk with hk | hk
  · exact known_of hk
  · exact .inr hk

theorem flag_known {b : Bool} {k : Str} (hk : (k, true) ∈ docOptionSpec) : ∀ p ∈ (if b then [(k, [])] else [] : List (Str × Str)), KnownOption p := by
  intro p hp
  cases b <;> simp only [Bool.false_eq_true, if_false, if_true, List.mem_singleton, List.not_mem_nil] at hp
  subst hp; exact known_flag hk

theorem limits_known (sep : Str) (l : List Str) : ∀ p ∈ limitsOption sep l, KnownOption p := by
  intro p hp
  unfold limitsOption at hp
  split at hp
  · cases hp
  · rw [List.mem_singleton] at hp; subst hp; exact known_of (by decide)

theorem Heading.known {env : Env} {role key : Option Str} {type : Str} {c : Common} {dflt o : List (Str × Str)}
    (h : Heading env role key type c dflt o) (hd : ∀ p ∈ dflt, KnownOption p) : ∀ p ∈ o, KnownOption p := by
  obtain ⟨de, no, co, ti, h1, h2, h3, h4, rfl⟩ := h
  intro p hp
  simp only [List.mem_append] at hp
  rcases hp with (((((((hp | hp) | hp) | hp) | hp) | hp) | hp) | hp) | hp
  · rw [List.mem_singleton] at hp; subst hp; exact known_of (by decide)
  · exact h1.known (.inl (by decide)) p hp
  · exact h2.known (.inr rfl) p hp
  · exact flag_known (by decide) p hp
  · exact flag_known (by decide) p hp
  · exact flag_known (by decide) p hp
  · exact h3.known (by decide) p hp
  · exact hd p hp
  · exact h4.known (by decide) p hp

theorem DefaultWritten.known {env : Env} {f : Field} {o : List (Str × Str)} (h : DefaultWritten env f o) : ∀ p ∈ o, KnownOption p := by
  have two : ∀ {o : List (Str × Str)}, (o = [] ∨ ∃ t, o = [(c!"default", t)]) → ∀ p ∈ o, KnownOption p := by
    rintro o (rfl | ⟨t, rfl⟩) p hp
    · cases hp
    · rw [List.mem_singleton] at hp; subst hp; exact known_of (by decide)
  cases f with
  | leaf => exact Written.known h (by decide)
  | union => exact Written.known h (by decide)
  | sequence => exact two h.1
  | map => exact two h.1
  | tuple => exact two h.1
  | «structure» => exact two h.1
  | poly => exact two h.1
  | undef => exact two h.1

theorem LeafSays.known {env : Env} {c : Common} {k : Leaf} {o : List (Str × Str)} (h : LeafSays env c k o) : ∀ p ∈ o, KnownOption p := by
  cases h with
  | integer => exact limits_known _ _
  | float => exact limits_known _ _
  | decimal => exact limits_known _ _
  | text => exact limits_known _ _
  | datetime =>
    intro p hp
    split at hp
    · rw [List.mem_singleton] at hp; subst hp; exact known_of (by decide)
    · cases hp
  | constant => exact fun _ h => nomatch h
  | enumeration => intro p hp; rw [List.mem_singleton] at hp; subst hp; exact known_of (by decide)
  | other => exact fun _ h => nomatch h

theorem KeysSay.known {env : Env} {req : List Val} {o : List (Str × Str)} (h : KeysSay env req o) : ∀ p ∈ o, KnownOption p := by
  cases h with
  | none => exact fun _ h => nomatch h
  | some => intro p hp; rw [List.mem_singleton] at hp; subst hp; exact known_of (by decide)

mutual
theorem Documents.known {env : Env} {role : Option Str} {members : Bool} {name : Str} {key : Option Str} {f : Field} {b : DocNode} :
    Documents env role members name key f b → AllBlocks KnownOption b
  | .block _ hd hh hs => by
    obtain ⟨h1, h2⟩ := hs.known
    refine .block (fun p hp => ?_) h2
    rcases List.mem_append.1 hp with hp | hp
    · exact hh.known hd.known p hp
    · exact h1 p hp
theorem Says.known {env : Env} {role : Option Str} {members : Bool} {f : Field} {o : List (Str × Str)} {content : List DocNode} :
    Says env role members f o content → (∀ p ∈ o, KnownOption p) ∧ ∀ b ∈ content, AllBlocks KnownOption b
  | .leaf h => ⟨h.known, fun _ h => nomatch h⟩
  | .sequence _ h => by
    refine ⟨fun p hp => ?_, fun b hb => ?_⟩
    · rcases List.mem_append.1 hp with hp | hp
      · exact flag_known (by decide) p hp
      · exact limits_known _ _ p hp
    · rw [List.mem_singleton] at hb; rw [hb]; exact h.known
  | .mapBlock h1 _ _ h => ⟨h1.known, fun b hb => by rw [List.mem_singleton] at hb; rw [hb]; exact h.known⟩
  | .mapType h1 _ _ => by
    refine ⟨fun p hp => ?_, fun _ h => nomatch h⟩
    rcases List.mem_append.1 hp with hp | hp
    · exact h1.known p hp
    · rw [List.mem_singleton] at hp; subst hp; exact known_of (by decide)
  | .tuple h => ⟨(fun _ h => nomatch h), h.known⟩
  | .union => ⟨(fun _ h => nomatch h), (fun _ h => nomatch h)⟩
  | .empty => ⟨(fun _ h => nomatch h), (fun _ h => nomatch h)⟩
  | .structure _ _ h => ⟨(fun _ h => nomatch h), h.known⟩
  | .noVariant => ⟨(fun _ h => nomatch h), (fun _ h => nomatch h)⟩
  | .poly _ _ _ _ _ h => ⟨fun p hp => by rw [List.mem_singleton] at hp; subst hp; exact known_flag (by decide), h.known⟩
theorem DocumentsAll.known {env : Env} {role : Option Str} {members : Bool} {fs : List Field} {bs : List DocNode} :
    DocumentsAll env role members fs bs → ∀ b ∈ bs, AllBlocks KnownOption b
  | .nil => fun _ h => nomatch h
  | .cons _ h1 h2 => fun b hb => by
    rcases List.mem_cons.1 hb with hb | hb
    · rw [hb]; exact h1.known
    · exact h2.known b hb
theorem DocumentsMembers.known {env : Env} {role : Option Str} {members : Bool} {fs : List (Str × Field)} {bs : List DocNode} :
    DocumentsMembers env role members fs bs → ∀ b ∈ bs, AllBlocks KnownOption b
  | .nil => fun _ h => nomatch h
  | .cons _ h1 h2 => fun b hb => by
    rcases List.mem_cons.1 hb with hb | hb
    · rw [hb]; exact h1.known
    · exact h2.known b hb
theorem DocumentsVariants.known {env : Env} {role : Option Str} {members : Bool} {name : Str} {vs : List (Val × List (Str × Field))}
    {bs : List DocNode} : DocumentsVariants env role members name vs bs → ∀ b ∈ bs, AllBlocks KnownOption b
  | .nil => fun _ h => nomatch h
  | .cons _ h1 h2 => fun b hb => by
    rcases List.mem_cons.1 hb with hb | hb
    · rw [hb]
      exact .block (fun p hp => by rw [List.mem_singleton] at hp; subst hp; exact known_flag (by decide)) h1.known
    · exact h2.known b hb
end

theorem known_name {p : Str × Str} (h : KnownOption p) : ':' ∉ p.1 ∧ SingleLine p.1 := by
  have all : ∀ k : Str, k ∈ c!"notes" :: docOptionSpec.map (·.1) → ':' ∉ k ∧ '\n' ∉ k := by decide
  refine all p.1 ?_
  rcases h with ⟨fl, h, _⟩ | h
  · exact List.mem_cons_of_mem _ (List.mem_map.2 ⟨_, h, rfl⟩)
  · rw [h]; exact List.mem_cons_self ..

theorem legible_of {b : DocNode} (h : AllBlocks KnownOption b) (hf : FitsLines blank b) : Legible blank b := by
  induction h with
  | block h1 _ ih =>
    cases hf with
    | block h2 h3 h4 => exact .block h2 (fun p hp => ⟨(known_name (h1 p hp)).1, (known_name (h1 p hp)).2, h3 p hp⟩) fun b hb => ih b hb (h4 b hb)

theorem asSection_known {b : DocNode} (h : AllBlocks KnownOption b) (s : Bool) : AllBlocks KnownOption (asSection s b) := by
  cases h with
  | block h1 h2 =>
    refine .block (fun p hp => ?_) h2
    rcases List.mem_append.1 hp with hp | hp
    · exact flag_known (by decide) p hp
    · exact h1 p hp

/-! ### the theorems -/

/-- C78: every option the generator writes is one the directive `field` has, except `notes`; those that are flags are
written without a value. -/
theorem C78_options (env : Env) (role : Option Str) (members : Bool) (name : Str) (key : Option Str) (f : Field) (b : DocNode)
    (h : Documents env role members name key f b) (sectional : Bool) : AllBlocks KnownOption (asSection sectional b) :=
  asSection_known h.known _

/-- C78: the directive has no option `notes`. -/
theorem C78_notes (flag : Bool) : (c!"notes", flag) ∉ docOptionSpec := by cases flag <;> decide

/-- C78: from the text of a documentation its blocks can be read, each with its depth, name and options, provided no name
has several lines and no value has blank lines. -/
theorem C78_read (blank : Str → Bool) (hb : Blank blank) (wrap : Str → Str → List Str) (env : Env) (role : Option Str)
    (members : Bool) (name : Str) (key : Option Str) (f : Field) (b : DocNode) (h : Documents env role members name key f b)
    (sectional : Bool) (hf : FitsLines blank (asSection sectional b)) (indent : Nat) :
    readLines blank none (splitOn '\n' (renderNode wrap indent (asSection sectional b))) = blocksOf indent (asSection sectional b) := by
  have := read_node hb wrap indent _ (legible_of (asSection_known h.known sectional) hf) []
  simpa [readLines] using this

/-- C78: so different documentations have different texts. -/
theorem C78_text (blank : Str → Bool) (hb : Blank blank) (wrap : Str → Str → List Str) (env env' : Env) (role role' : Option Str)
    (members members' : Bool) (name name' : Str) (key key' : Option Str) (f f' : Field) (b b' : DocNode)
    (h : Documents env role members name key f b) (h' : Documents env' role' members' name' key' f' b') (s s' : Bool)
    (hf : FitsLines blank (asSection s b)) (hf' : FitsLines blank (asSection s' b')) (indent : Nat)
    (ht : renderNode wrap indent (asSection s b) = renderNode wrap indent (asSection s' b')) : asSection s b = asSection s' b' := by
  have h1 := C78_read blank hb wrap env role members name key f b h s hf indent
  have h2 := C78_read blank hb wrap env' role' members' name' key' f' b' h' s' hf' indent
  rw [ht, h2] at h1
  exact (blocksOf_inj indent _ _ (legible_of (asSection_known h.known s) hf) (legible_of (asSection_known h'.known s') hf') [] []
    (fun _ h => by cases h) (fun _ h => by cases h) (by rw [h1])).1

/-! ### what is shown -/

theorem optGet_congr {o o' : List (Str × Str)} (h : ∀ k, k ≠ c!"notes" → k ≠ c!"example" → o.lookup k = o'.lookup k) {k : Str}
    (h1 : k ≠ c!"notes") (h2 : k ≠ c!"example") : optGet o k = optGet o' k ∧ optHas o k = optHas o' k := by
  unfold optGet optHas; rw [h k h1 h2]; exact ⟨rfl, rfl⟩

/-- C78: `notes`, were it accepted, and `example`, which is, would not be shown. -/
theorem C78_ignored (u : Chars) (args : List Str) (o o' : List (Str × Str)) (content : List DocElem)
    (h : ∀ k, k ≠ c!"notes" → k ≠ c!"example" → o.lookup k = o'.lookup k) : docRun u args o content = docRun u args o' content := by
  have g : ∀ k, k ≠ c!"notes" → k ≠ c!"example" → optGet o k = optGet o' k := fun k h1 h2 => (optGet_congr h h1 h2).1
  have i : ∀ k, k ≠ c!"notes" → k ≠ c!"example" → optHas o k = optHas o' k := fun k h1 h2 => (optGet_congr h h1 h2).2
  have hn : docName u args o = docName u args o' := by
    simp only [docName, i c!"required" (by decide) (by decide), i c!"sectional" (by decide) (by decide),
      i c!"polymorphic_discriminator" (by decide) (by decide)]
  have hfl : docFlags.filter (optHas o) = docFlags.filter (optHas o') := by
    apply List.filter_congr
    intro k hk
    exact i k (by rintro rfl; revert hk; decide) (by rintro rfl; revert hk; decide)
  have has : (docAspects.filter fun a => !(optGet o a).isEmpty).map (fun a => docAspect a (optGet o a)) =
      (docAspects.filter fun a => !(optGet o' a).isEmpty).map (fun a => docAspect a (optGet o' a)) := by
    have e : ∀ a ∈ docAspects, optGet o a = optGet o' a := fun a ha =>
      g a (by rintro rfl; revert ha; decide) (by rintro rfl; revert ha; decide)
    rw [List.filter_congr (q := fun a => !(optGet o' a).isEmpty) (fun a ha => by rw [e a ha])]
    apply List.map_congr_left
    intro a ha
    rw [e a (List.mem_filter.1 ha).1]
  unfold docRun docSignature
  simp only [hn, hfl, has, i c!"sectional" (by decide) (by decide), g c!"description" (by decide) (by decide),
    g c!"type" (by decide) (by decide), g c!"subtype" (by decide) (by decide), g c!"key" (by decide) (by decide),
    g c!"constant" (by decide) (by decide), g c!"default" (by decide) (by decide), g c!"constraints" (by decide) (by decide),
    g c!"title" (by decide) (by decide)]

theorem shownAll_append (a b : List DocElem) : shownAll (a ++ b) = shownAll a ++ shownAll b := by
  induction a with
  | nil => rfl
  | cons x r ih => rw [List.cons_append, shownAll, shownAll, ih, List.append_assoc]

theorem shown_textElem (tag s : Str) (cl : List Str) : shownElem (textElem tag s cl) = s := by
  simp [textElem, shownElem, shownAll]

theorem shown_piece (b : Bool) (e : DocElem) : shownAll (docPiece b e) = if b then ' ' :: shownElem e else [] := by
  cases b <;> simp [docPiece, shownElem, shownAll]

/-- C78: the line shown for a field: the name, then type, subtype, key, constant or else default, limits, flags and title,
as far as they are given. -/
theorem C78_signature (u : Chars) (args : List Str) (o : List (Str × Str)) :
    shownElem (docSignature u args o) = shownAll (docName u args o) ++ (signatureParts o).flatMap fun t => ' ' :: t := by
  have hsub : ∀ t : Str, shownElem (docSubtype t) = c!"<" ++ t.takeWhile (· != ';') ++
      (if (t.dropWhile (· != ';')).tail.isEmpty then [] else ' ' :: (t.dropWhile (· != ';')).tail) ++ c!">" := by
    intro t
    simp only [docSubtype, shownElem, shownAll_append, shown_piece, shown_textElem, shownAll]
    cases (t.dropWhile (· != ';')).tail <;> simp
  have one : ∀ t u : Str, (if !t.isEmpty then ' ' :: u else []) = ((if t.isEmpty then [] else [u]) : List Str).flatMap fun t => ' ' :: t := by
    intro t u; cases t <;> simp
  have two : ∀ (t u t' u' : Str) (r : Str), (if !t.isEmpty then ' ' :: u else []) ++ ((if !t'.isEmpty && t.isEmpty then ' ' :: u' else []) ++ r) =
      ((if t.isEmpty then (if t'.isEmpty then [] else [u']) else [u]) : List Str).flatMap (fun t => ' ' :: t) ++ r := by
    intro t u t' u' r; cases t <;> cases t' <;> simp
  have flags : ∀ (l : List Str) (u : Str), (if !l.isEmpty then ' ' :: u else []) =
      ((if l.isEmpty then [] else [u]) : List Str).flatMap fun t => ' ' :: t := by
    intro l u; cases l <;> simp
  have hF : [c!"required", c!"nonnull", c!"ignore_null", c!"polymorphic", c!"unique"] = docFlags := rfl
  simp only [docSignature, shownElem, shownAll_append, shown_piece, shown_textElem, hsub, signatureParts, hF, List.flatMap_append,
    List.append_assoc, two, id]
  simp only [one, flags]

namespace DocEx

def isBlankLine (l : Str) : Bool := l.all (· == ' ')

theorem blankLine : Blank isBlankLine where
  nil := rfl
  spaces n s := by
    unfold isBlankLine
    rw [List.all_append]
    have : (List.replicate n ' ').all (· == ' ') = true := by
      rw [List.all_eq_true]; intro x hx; rw [(List.mem_replicate.1 hx).2]; rfl
    rw [this, Bool.true_and]
  colon s := rfl

/-- The text of the example. -/
example : renderNode (fun _ _ => []) 0 docPersonNode = c!"
.. field:: person
    :sectional: 
    :type: structure


    .. field:: age
        :type: integer
        :description: in years
        :required: 
        :default: 3
        :constraints: min=0, max=150




    .. field:: likes
        :type: sequence
        :title: Likes
        :unique: 
        :constraints: min=1


        .. field:: 
            :type: enumeration
            :values: blue red

" := by decide +kernel

theorem docPerson_documented : ∃ b, docPersonNode = asSection true b ∧ Documents docEnv none true c!"person" none docPerson b :=
  C78_says docEnv docEnv_fixed docLister true docLister_lists false 9 9 (Nat.le_refl _) docPerson
    docPerson_simple docPersonVal rfl c!"person" true docPersonNode rfl

theorem short {s : Str} (h : splitOn '\n' s = [s]) : NoBlankLine isBlankLine s := by
  unfold NoBlankLine; rw [h]; exact fun _ h => nomatch h

theorem docPersonNode_fits : FitsLines isBlankLine docPersonNode := by
  have no : ∀ b ∈ ([] : List DocNode), FitsLines isBlankLine b := fun _ h => nomatch h
  have all : ∀ {l : List (Str × Str)}, (∀ p ∈ l, splitOn '\n' p.2 = [p.2]) → ∀ p ∈ l, NoBlankLine isBlankLine p.2 :=
    fun h p hp => short (h p hp)
  refine .block (by unfold SingleLine; decide) (all (by decide)) fun b hb => ?_
  simp only [List.mem_cons, List.not_mem_nil, or_false] at hb
  rcases hb with rfl | rfl
  · exact .block (by unfold SingleLine; decide) (all (by decide)) no
  · refine .block (by unfold SingleLine; decide) (all (by decide)) fun b hb => ?_
    rw [List.mem_singleton] at hb
    subst hb
    exact .block (by unfold SingleLine; decide) (all (by decide)) no

example : readLines isBlankLine none (splitOn '\n' (renderNode (fun _ _ => []) 0 docPersonNode)) = [
    ⟨0, c!"person", [(c!"sectional", []), (c!"type", c!"structure")]⟩,
    ⟨1, c!"age", [(c!"type", c!"integer"), (c!"description", c!"in years"), (c!"required", []), (c!"default", c!"3"),
      (c!"constraints", c!"min=0, max=150")]⟩,
    ⟨1, c!"likes", [(c!"type", c!"sequence"), (c!"title", c!"Likes"), (c!"unique", []), (c!"constraints", c!"min=1")]⟩,
    ⟨2, [], [(c!"type", c!"enumeration"), (c!"values", c!"blue red")]⟩] := by
  obtain ⟨b, h1, h2⟩ := docPerson_documented
  rw [h1, C78_read isBlankLine blankLine _ docEnv none true _ none docPerson b h2 true (h1 ▸ docPersonNode_fits) 0, ← h1]
  rfl

/-- Several lines that are not blank are read as written. -/
example : readLines isBlankLine none (splitOn '\n' (renderNode (fun _ _ => []) 0
      (.block c!"field" [c!"x"] [(c!"type", c!"text"), (c!"description", c!"one\ntwo"), (c!"required", [])] []))) =
    [⟨0, c!"x", [(c!"type", c!"text"), (c!"description", c!"one\ntwo"), (c!"required", [])]⟩] := by decide +kernel

example : shownElem (docSignature Ex.chars [c!"age"] [(c!"type", c!"integer"), (c!"description", c!"in years"), (c!"required", []),
      (c!"default", c!"3"), (c!"constraints", c!"min=0, max=150")]) = c!"age: integer default=3 min=0, max=150 required" := by
  decide +kernel

end DocEx

/-- C78: a structure block shows its name, and then its contents if there are any. -/
theorem C78_block (arg : Str) (content : List DocElem) : shownAll (docStructRun arg content) = arg ++ shownAll content ∧
    ∀ e ∈ content, ∃ block ∈ docStructRun arg content, ∃ tag classes inner, block = .el tag classes inner ∧ e ∈ inner := by
  constructor
  · cases content <;> simp [docStructRun, shownAll, shownElem, shown_textElem]
  · intro e he
    have : content.isEmpty = false := by cases content <;> simp_all
    simp only [docStructRun, this]
    exact ⟨_, List.mem_cons_of_mem _ (List.mem_singleton.2 rfl), _, _, _, rfl, he⟩

/-- C78: a description that has a blank line ends the options: `required` is lost. -/
theorem C78_lost : readLines DocEx.isBlankLine none (splitOn '\n' (renderNode (fun _ _ => []) 0
      (.block c!"field" [c!"x"] [(c!"type", c!"text"), (c!"description", c!"one\n\ntwo"), (c!"required", [])] []))) =
    [⟨0, c!"x", [(c!"type", c!"text"), (c!"description", c!"one")]⟩] := by decide +kernel

end Scheme
