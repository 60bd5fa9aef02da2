import Verif.Spec.Import
import Verif.Props.Strings

/-! C62: names of objects. -/

namespace Scheme

variable {α : Type} {w : Modules α}

theorem attrs_reaches {o o' : α} {l : List Str} : w.attrs o l = some o' ↔ Reaches w o l o' := by
  induction l generalizing o with
  | nil =>
    simp only [Modules.attrs, Option.some.injEq]
    exact ⟨fun h => h ▸ .here _, fun h => by cases h; rfl⟩
  | cons a r ih =>
    rw [Modules.attrs, Option.bind_eq_some_iff]
    constructor
    · rintro ⟨x, h1, h2⟩
      exact .step h1 (ih.1 h2)
    · intro h
      cases h with
      | step h1 h2 => exact ⟨_, h1, ih.2 h2⟩

/-- The loop, for the segments `l` of the path and the attributes split off before. -/
theorem search_iff {l attrs : List Str} {o : α} (hl : l ≠ []) (hl' : l ≠ [[]]) : w.search l.reverse attrs = some o ↔
    ∃ pre post m, l = pre ++ post ∧ pre ≠ [] ∧ pre ≠ [[]] ∧ w.load (joinStr c!"." pre) = .found m ∧ Reaches w m (post ++ attrs) o ∧
      ∀ a b, post = a ++ b → a ≠ [] → w.load (joinStr c!"." (pre ++ a)) = .missing := by
  obtain ⟨n, hn⟩ : ∃ n, l.length = n := ⟨_, rfl⟩
  induction n generalizing l attrs with
  | zero => simp at hn; exact absurd hn hl
  | succ n ih =>
    obtain ⟨front, back, rfl⟩ : ∃ front back, l = front ++ [back] := by
      rcases List.eq_nil_or_concat l with h | ⟨q, x, h⟩
      · exact absurd h hl
      · exact ⟨q, x, by rw [h, List.concat_eq_append]⟩
    have hlen : front.length = n := by simpa using hn
    rw [List.reverse_append, List.reverse_singleton, List.singleton_append, Modules.search]
    have hj : (back :: front.reverse).reverse = front ++ [back] := by simp
    rw [hj]
    cases hld : w.load (joinStr c!"." (front ++ [back])) with
    | found m =>
      simp only [attrs_reaches]
      constructor
      · intro h
        refine ⟨front ++ [back], [], m, by simp, hl, hl', hld, h, fun a b e ha => ?_⟩
        simp at e; exact absurd e.1 ha
      · rintro ⟨pre, post, m', h1, h2, _, h3, h4, h5⟩
        by_cases hp : post = []
        · subst hp
          rw [List.append_nil] at h1
          subst h1
          rw [hld] at h3
          cases h3
          exact h4
        · have := h5 post [] (by simp) hp
          rw [← h1, hld] at this
          cases this
    | failed =>
      simp only [reduceCtorEq, false_iff]
      rintro ⟨pre, post, m', h1, h2, _, h3, h4, h5⟩
      by_cases hp : post = []
      · subst hp
        rw [List.append_nil] at h1
        subst h1
        rw [hld] at h3
        cases h3
      · have := h5 post [] (by simp) hp
        rw [← h1, hld] at this
        cases this
    | missing =>
      -- a decomposition leaves `back` among the attributes
      have key : (∃ pre post m, front ++ [back] = pre ++ post ∧ pre ≠ [] ∧ pre ≠ [[]] ∧ w.load (joinStr c!"." pre) = .found m ∧
          Reaches w m (post ++ attrs) o ∧ ∀ a b, post = a ++ b → a ≠ [] → w.load (joinStr c!"." (pre ++ a)) = .missing) ↔
          ∃ pre post m, front = pre ++ post ∧ pre ≠ [] ∧ pre ≠ [[]] ∧ w.load (joinStr c!"." pre) = .found m ∧
          Reaches w m (post ++ back :: attrs) o ∧ ∀ a b, post = a ++ b → a ≠ [] → w.load (joinStr c!"." (pre ++ a)) = .missing := by
        constructor
        · rintro ⟨pre, post, m, h1, h2, h2', h3, h4, h5⟩
          rcases List.eq_nil_or_concat post with rfl | ⟨q, x, rfl⟩
          · rw [List.append_nil] at h1
            subst h1
            rw [hld] at h3; cases h3
          · rw [List.concat_eq_append, ← List.append_assoc] at h1
            obtain ⟨e1, e2⟩ := List.append_inj' h1 rfl
            cases e2
            refine ⟨pre, q, m, e1, h2, h2', h3, by simpa using h4, fun a b e ha => h5 a (b ++ [back]) (by simp [e]) ha⟩
        · rintro ⟨pre, post, m, h1, h2, h2', h3, h4, h5⟩
          refine ⟨pre, post ++ [back], m, by simp [h1], h2, h2', h3, by simpa using h4, fun a b e ha => ?_⟩
          rcases List.eq_nil_or_concat b with rfl | ⟨q, x, rfl⟩
          · rw [List.append_nil] at e
            rw [← e, ← List.append_assoc, ← h1, hld]
          · rw [List.concat_eq_append, ← List.append_assoc] at e
            obtain ⟨e1, _⟩ := List.append_inj' e rfl
            exact h5 a q e1 ha
      rw [key]
      simp only
      split
      · rename_i hf
        simp only [reduceCtorEq, false_iff]
        rintro ⟨pre, post, m, h1, h2, h2', _⟩
        rcases hf with hf | hf
        · have : front = [] := by simpa using hf
          rw [this] at h1
          exact h2 (List.append_eq_nil_iff.1 h1.symm).1
        · have : front = [[]] := by simpa using congrArg List.reverse hf
          rw [this] at h1
          cases pre with
          | nil => exact h2 rfl
          | cons x r =>
            simp only [List.cons_append, List.cons.injEq] at h1
            obtain ⟨e1, e2⟩ := h1
            have := (List.append_eq_nil_iff.1 e2.symm).1
            subst this; subst e1
            exact h2' rfl
      · rename_i hf
        rw [not_or] at hf
        exact ih (fun h => hf.1 (by simp [h])) (fun h => hf.2 (by simp [h])) hlen

theorem join_splitOn (c : Char) (s : Str) : joinStr [c] (splitOn c s) = s := by
  induction s with
  | nil => rfl
  | cons d r ih =>
    rw [splitOn]
    cases hs : splitOn c r with
    | nil => exact absurd hs (splitOn_ne_nil c r)
    | cons a t =>
      rw [hs] at ih
      split
      · rename_i hd
        subst hd
        rw [joinStr, ih] <;> simp
      · cases t with
        | nil => simp only [joinStr] at ih ⊢; rw [ih]
        | cons b t => simp only [joinStr, List.cons_append] at ih ⊢; rw [ih]

theorem join_last (sep : Str) {l : List Str} (h : l ≠ []) (x : Str) : joinStr sep (l ++ [x]) = joinStr sep l ++ (sep ++ x) := by
  induction l with
  | nil => exact absurd rfl h
  | cons a t ih =>
    cases t with
    | nil => simp [joinStr]
    | cons b t =>
      have := ih (by simp)
      simp only [List.cons_append] at this
      simp only [List.cons_append, joinStr, this, List.append_assoc]

/-- A dotted path is resolved by its longest prefix that is a module. -/
theorem C62_dotted (w : Modules α) (path : Str) (o : α) (hc : ':' ∉ path) (hd : '.' ∈ path) :
    w.importObject path = some o ↔ Denotes w (splitOn '.' path) o := by
  have hne : splitOn '.' path ≠ [] := splitOn_ne_nil _ _
  have hne' : splitOn '.' path ≠ [[]] := by
    intro h
    have := join_splitOn '.' path
    rw [h] at this
    rw [← this] at hd
    cases hd
  rw [Modules.importObject, if_neg hc, if_pos hd, search_iff hne hne']
  simp only [List.append_nil, Denotes]

/-- A path without dots is that of a module. -/
theorem C62_plain (w : Modules α) (path : Str) (o : α) (hc : ':' ∉ path) (hd : '.' ∉ path) :
    w.importObject path = some o ↔ w.load path = .found o := by
  rw [Modules.importObject, if_neg hc, if_neg hd]
  cases w.load path <;> simp

/-- Before a colon stands the module, after it the attributes. -/
theorem C62_colon (w : Modules α) (path attrs : Str) (o : α) (hp : ':' ∉ path) (ha : ':' ∉ attrs) :
    w.importObject (path ++ ':' :: attrs) = some o ↔ ∃ m, w.load path = .found m ∧ Reaches w m (splitOn '.' attrs) o := by
  have hs : splitOn ':' (path ++ ':' :: attrs) = [path, attrs] := by
    have := splitOn_join (c := ':') (l := [path, attrs]) (by simp) (by simp [hp, ha])
    simpa [joinStr] using this
  rw [Modules.importObject, if_pos (by simp), hs]
  simp only
  cases w.load path <;> simp [attrs_reaches]

/-- With several colons nothing is found. -/
theorem C62_colons (w : Modules α) (a b c : Str) : w.importObject (a ++ ':' :: (b ++ ':' :: c)) = none := by
  have hs : ∀ p q, splitOn ':' (a ++ ':' :: (b ++ ':' :: c)) ≠ [p, q] := by
    intro p q h
    have h1 := join_splitOn ':' (a ++ ':' :: (b ++ ':' :: c))
    have hp : ':' ∉ p := splitOn_parts (c := ':') (s := a ++ ':' :: (b ++ ':' :: c)) (by rw [h]; simp)
    have hq : ':' ∉ q := splitOn_parts (c := ':') (s := a ++ ':' :: (b ++ ':' :: c)) (by rw [h]; simp)
    rw [h] at h1
    have := congrArg (List.count ':') h1
    simp only [joinStr, List.count_append, List.count_eq_zero.2 hp, List.count_eq_zero.2 hq, List.count_cons] at this
    simp at this
    omega
  rw [Modules.importObject, if_pos (by simp)]
  split
  · rename_i h
    exact absurd h (hs _ _)
  · rfl

/-- A name in a module that can be imported: a module of that name comes first, then the attribute. -/
theorem C62_member (w : Modules α) (module name : Str) (m o : α) (h1 : ':' ∉ module) (h2 : ':' ∉ name) (h3 : '.' ∉ name)
    (hne : module ≠ []) (hm : w.load module = .found m) :
    w.importObject (module ++ '.' :: name) = some o ↔
      w.load (module ++ '.' :: name) = .found o ∨ (w.load (module ++ '.' :: name) = .missing ∧ w.attr m name = some o) := by
  have hj : joinStr c!"." (splitOn '.' module ++ [name]) = module ++ '.' :: name := by
    rw [join_last _ (splitOn_ne_nil _ _), join_splitOn]; rfl
  have hs : splitOn '.' (module ++ '.' :: name) = splitOn '.' module ++ [name] := by
    rw [← hj]
    refine splitOn_join (by simp) fun x hx => ?_
    rcases List.mem_append.1 hx with hx | hx
    · exact splitOn_parts hx
    · rw [List.mem_singleton.1 hx]; exact h3
  rw [C62_dotted w _ o (by simp [h1, h2]) (by simp), hs]
  constructor
  · rintro ⟨pre, post, m', e, p1, p2, p3, p4, p5⟩
    rcases List.eq_nil_or_concat post with rfl | ⟨q, x, rfl⟩
    · rw [List.append_nil] at e
      rw [← e, hj] at p3
      cases p4
      exact .inl p3
    · right
      rw [List.concat_eq_append, ← List.append_assoc] at e
      obtain ⟨e1, e2⟩ := List.append_inj' e rfl
      cases e2
      have hmiss := p5 (q ++ [name]) [] (by simp) (by simp)
      rw [← List.append_assoc, ← e1, hj] at hmiss
      refine ⟨hmiss, ?_⟩
      cases q with
      | nil =>
        rw [List.append_nil] at e1
        rw [← e1, join_splitOn, hm] at p3
        cases p3
        rcases p4 with _ | ⟨h, p4⟩
        cases p4
        exact h
      | cons y t =>
        have := p5 (y :: t) [name] (by simp) (by simp)
        rw [← e1, join_splitOn, hm] at this
        cases this
  · rintro (h | ⟨h, ha⟩)
    · refine ⟨splitOn '.' module ++ [name], [], o, by simp, by simp, ?_, by rw [hj]; exact h, .here _, ?_⟩
      · intro he
        have := congrArg List.length he
        have hl := splitOn_ne_nil '.' module
        simp at this
        exact hl this
      · intro a b e ha
        simp at e; exact absurd e.1 ha
    · refine ⟨splitOn '.' module, [name], m, rfl, splitOn_ne_nil _ _, ?_, by rw [join_splitOn]; exact hm, .step ha (.here _), ?_⟩
      · intro he
        have := join_splitOn '.' module
        rw [he] at this
        exact hne this.symm
      · intro a b e ha'
        cases a with
        | nil => exact absurd rfl ha'
        | cons x t =>
          simp only [List.cons_append, List.cons.injEq] at e
          obtain ⟨rfl, e⟩ := e
          rw [(List.append_eq_nil_iff.1 e.symm).1, hj]
          exact h

/-! ### identities -/

section
variable [DecidableEq α]

/-- The identity of a module leads back to it. -/
theorem C62_module (w : Modules α) (cache : NameCache α) (o : α) (name : Str) (hk : w.kind o = .module name)
    (hc : ':' ∉ name) (hl : w.load name = .found o) :
    ∃ s, (w.identify cache o).1 = some s ∧ w.importObject s = some o := by
  refine ⟨name, by simp [Modules.identify, hk], ?_⟩
  by_cases hd : '.' ∈ name
  · rw [C62_dotted w name o hc hd]
    refine ⟨splitOn '.' name, [], o, by simp, splitOn_ne_nil _ _, ?_, by rw [join_splitOn]; exact hl, .here _, ?_⟩
    · intro h
      have := join_splitOn '.' name
      rw [h] at this
      rw [← this] at hd
      cases hd
    · intro a b e ha
      simp at e; exact absurd e.1 ha
  · rw [C62_plain w name o hc hd]
    exact hl

/-- The identity of a class leads back to it exactly if no module has this name and the class is what its module has
under its name. -/
theorem C62_class (w : Modules α) (cache : NameCache α) (o m : α) (module name : Str) (hk : w.kind o = .cls module name)
    (hmain : module ≠ c!"__main__") (h1 : ':' ∉ module) (h2 : ':' ∉ name) (h3 : '.' ∉ name) (hne : module ≠ [])
    (hm : w.load module = .found m) : ∃ s, (w.identify cache o).1 = some s ∧
      (w.importObject s = some o ↔
        w.load s = .found o ∨ (w.load s = .missing ∧ w.attr m name = some o)) := by
  refine ⟨module ++ '.' :: name, by simp [Modules.identify, hk, hmain], C62_member w module name m o h1 h2 h3 hne hm⟩

/-- Deviation: a class of the main program is only named by its own name, which is taken for that of a module. -/
theorem C62_main (w : Modules α) (cache : NameCache α) (o : α) (name : Str) (hk : w.kind o = .cls c!"__main__" name)
    (h2 : ':' ∉ name) (h3 : '.' ∉ name) : ∃ s, (w.identify cache o).1 = some s ∧
      (w.importObject s = some o ↔ w.load name = .found o) :=
  ⟨name, by simp [Modules.identify, hk], C62_plain w name o h2 h3⟩

/-- What the cache holds after some calls: names of objects asked for. -/
theorem cache_named (w : Modules α) {cache : NameCache α} {asked l : List α}
    (h : ∀ e ∈ cache, e.1 ∈ asked ∧ NamedIn w e.1 e.2) :
    ∀ e ∈ w.identifyAll cache l, e.1 ∈ asked ++ l ∧ NamedIn w e.1 e.2 := by
  induction l generalizing cache asked with
  | nil => simpa [Modules.identifyAll] using h
  | cons o r ih =>
    rw [Modules.identifyAll]
    have : asked ++ o :: r = (asked ++ [o]) ++ r := by simp
    rw [this]
    have keep : ∀ e ∈ cache, e.1 ∈ asked ++ [o] ∧ NamedIn w e.1 e.2 := fun e he =>
      ⟨List.mem_append_left _ (h e he).1, (h e he).2⟩
    refine ih ?_
    unfold Modules.identify
    split
    · exact keep
    · exact keep
    · rename_i hash module hk
      split
      · exact keep
      · rename_i hh
        split
        · exact keep
        · split
          · exact keep
          · rename_i name entries
            split
            · rename_i e hf
              intro x hx
              rcases List.mem_cons.1 hx with rfl | hx
              · have heq : e.2 = o := by simpa using List.find?_some hf
                have hmem := List.mem_of_find?_eq_some hf
                refine ⟨by simp, name, entries, e.1, ?_, rfl, ?_⟩
                · rw [hk]; simp at hh; rw [hh]
                · show (e.1, o) ∈ entries
                  rw [← heq]; exact hmem
              · exact keep x hx
            · exact keep

/-- Whatever has been asked before, the identity of an object that is neither module nor class is a name of it in its
module, or of an equal object that was asked for before. -/
theorem C62_named (w : Modules α) (l : List α) (o : α) (s : Str) (hk : ∃ h m, w.kind o = .other h m)
    (h : (w.identify (w.identifyAll [] l) o).1 = some s) :
    NamedIn w o s ∨ ∃ o' ∈ l, w.same o o' = true ∧ NamedIn w o' s := by
  have hc := cache_named w (cache := []) (asked := []) (l := l) (by simp)
  obtain ⟨hash, module, hk⟩ := hk
  simp only [Modules.identify, hk] at h
  split at h
  · cases h
  · rename_i hh
    split at h
    · rename_i e hf
      cases h
      have := hc e (List.mem_of_find?_eq_some hf)
      exact .inr ⟨e.1, by simpa using this.1, by simpa using List.find?_some hf, this.2⟩
    · split at h
      · cases h
      · rename_i name entries
        split at h
        · rename_i e hf
          cases h
          have heq : e.2 = o := by simpa using List.find?_some hf
          refine .inl ⟨name, entries, e.1, ?_, rfl, ?_⟩
          · rw [hk]; simp at hh; rw [hh]
          · rw [← heq]; exact List.mem_of_find?_eq_some hf
        · cases h

/-- An object has an identity if it is hashable and its module has it. -/
theorem C62_has_name (w : Modules α) (l : List α) (o : α) (s : Str) (h : NamedIn w o s) :
    ∃ s', (w.identify (w.identifyAll [] l) o).1 = some s' := by
  obtain ⟨module, entries, name, hk, _, hm⟩ := h
  simp only [Modules.identify, hk, Bool.not_true]
  split
  · rename_i hf; cases hf
  · split
    · exact ⟨_, rfl⟩
    · split
      · exact ⟨_, rfl⟩
      · rename_i hf
        have := List.find?_eq_none.1 hf _ hm
        simp at this

/-- The identity of an object that is not equal to any other leads back to it, if its module can be imported, its
attributes are the entries of its `__dict__`, and no module is called like it. -/
theorem C62_object (w : Modules α) (l : List α) (o m : α) (module : Str) (entries : List (Str × α))
    (hk : w.kind o = .other true (some (module, entries))) (hs : ∀ o' ∈ l, w.same o o' = true → o' = o)
    (h1 : ':' ∉ module) (hne : module ≠ []) (hm : w.load module = .found m)
    (he : ∀ name, (name, o) ∈ entries → ':' ∉ name ∧ '.' ∉ name ∧ w.attr m name = some o ∧
      w.load (module ++ '.' :: name) = .missing)
    (s : Str) (h : (w.identify (w.identifyAll [] l) o).1 = some s) : w.importObject s = some o := by
  have : NamedIn w o s := by
    rcases C62_named w l o s ⟨_, _, hk⟩ h with h | ⟨o', ho, hso, hn⟩
    · exact h
    · rw [hs o' ho hso] at hn
      exact hn
  obtain ⟨module', entries', name, hk', rfl, hmem⟩ := this
  rw [hk] at hk'
  cases hk'
  obtain ⟨e1, e2, e3, e4⟩ := he name hmem
  exact (C62_member w module name m o h1 e1 e2 hne hm).2 (.inr ⟨e4, e3⟩)

end

/-! ### examples -/

namespace ImportEx

/-- Package `p` (0) with module `p.m` (1), in which there are a class `C` (2), with a class `D` (3) inside, two equal
objects `x` (4) and `y` (5), and a class `n` (6) called like the module `p.m.n` (7). -/
def world : Modules Nat where
  load s := if s = c!"p" then .found 0 else if s = c!"p.m" then .found 1 else if s = c!"p.m.n" then .found 7
    else if s = c!"p.broken" then .failed else .missing
  attr o a := if o = 0 ∧ a = c!"m" then some 1 else if o = 1 ∧ a = c!"C" then some 2 else if o = 2 ∧ a = c!"D" then some 3
    else if o = 1 ∧ a = c!"x" then some 4 else if o = 1 ∧ a = c!"y" then some 5 else if o = 1 ∧ a = c!"n" then some 6 else none
  kind o := match o with
    | 0 => .module c!"p"
    | 1 => .module c!"p.m"
    | 2 => .cls c!"p.m" c!"C"
    | 3 => .cls c!"p.m" c!"D"
    | 6 => .cls c!"p.m" c!"n"
    | 7 => .module c!"p.m.n"
    | _ => .other true (some (c!"p.m", [(c!"C", 2), (c!"x", 4), (c!"y", 5), (c!"n", 6)]))
  same a b := a == b || (a == 4 && b == 5) || (a == 5 && b == 4)

example : world.importObject c!"p.m.C.D" = some 3 :=
  (C62_dotted world _ 3 (by decide) (by decide)).2 ⟨[c!"p", c!"m"], [c!"C", c!"D"], 1, rfl, by decide, by decide, rfl,
    .step (o' := 2) rfl (.step rfl (.here 3)), by
    intro a b e ha
    match a, b, e with
    | [], _, _ => exact absurd rfl ha
    | [_], _, e => simp at e; obtain ⟨rfl, _⟩ := e; rfl
    | [_, _], _, e => simp at e; obtain ⟨rfl, rfl, _⟩ := e; rfl
    | _ :: _ :: _ :: _, _, e => simp at e⟩

example : world.importObject c!"p.m:C.D" = some 3 :=
  (C62_colon world c!"p.m" c!"C.D" 3 (by decide) (by decide)).2 ⟨1, rfl, .step (o' := 2) rfl (.step rfl (.here 3))⟩

example : world.importObject c!"p:m:C" = none := C62_colons world c!"p" c!"m" c!"C"
example : world.importObject c!"p.broken.C" = none := rfl

example : ∃ s, (world.identify [] 1).1 = some s ∧ world.importObject s = some 1 :=
  C62_module world [] 1 c!"p.m" rfl (by decide) rfl

example : ∃ s, (world.identify [] 2).1 = some s ∧ world.importObject s = some 2 := by
  obtain ⟨s, h1, h2⟩ := C62_class world [] 2 1 c!"p.m" c!"C" rfl (by decide) (by decide) (by decide) (by decide) (by decide) rfl
  cases h1
  exact ⟨_, rfl, h2.2 (.inr ⟨rfl, rfl⟩)⟩

/-- Deviations: the identity of a nested class leads nowhere, that of a class called like a module to the module; equal
objects get the name of the one asked for first. -/
theorem _root_.Scheme.C62_lost : (world.identify [] 3).1 = some c!"p.m.D" ∧ world.importObject c!"p.m.D" = none ∧
    (world.identify [] 6).1 = some c!"p.m.n" ∧ world.importObject c!"p.m.n" = some 7 ∧
    (world.identify (world.identifyAll [] []) 5).1 = some c!"p.m.y" ∧
    (world.identify (world.identifyAll [] [4]) 5).1 = some c!"p.m.x" := ⟨rfl, rfl, rfl, rfl, rfl, rfl⟩

example : world.importObject c!"p.m.x" = some 4 := by
  refine C62_object world [2, 4] 4 1 c!"p.m" _ rfl (by decide) (by decide) (by decide) rfl ?_ c!"p.m.x" rfl
  intro name h
  simp only [List.mem_cons, Prod.mk.injEq, List.not_mem_nil, or_false] at h
  rcases h with h | h | h | h <;> obtain ⟨rfl, h⟩ := h <;> first | cases h | skip
  exact ⟨by decide, by decide, rfl, rfl⟩

end ImportEx

end Scheme
