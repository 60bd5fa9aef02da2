import Verif.Spec.Repr
import Verif.Props.Doc

/-! C79: `repr(field)`. -/

namespace Scheme
namespace RP

variable {w : RWorld} {rec : Nat → Except PyErr Str}

def render (w : RWorld) (rec : Nat → Except PyErr Str) : RContent → Except PyErr Str
  | .val v => .ok (w.repr v)
  | .arg (.tuple [x]) => .ok (w.repr x)
  | .arg (.tuple _) => .error .typeError
  | .arg v => .ok (w.repr v)
  | .each vs => .ok (c!"[" ++ joinStr c!", " (vs.map w.repr) ++ c!"]")
  | .sorted vs => match docSorted (.list vs) with
    | .ok s => .ok (w.repr (.list s))
    | .error _ => .error .typeError
  | .flag true => .ok c!"True"
  | .flag false => .ok c!"False"
  | .part i => rec i

def renderAll (w : RWorld) (rec : Nat → Except PyErr Str) : List (RKey × RContent) → Except PyErr (List (RKey × Str))
  | [] => .ok []
  | e :: r => do
    let t ← render w rec e.2
    let l ← renderAll w rec r
    return (e.1, t) :: l

def entries (keys : List RKey) (pad : Bool) (c : Common) (k : RKind) : List (RKey × RContent) :=
  keys.filterMap fun key => (shownAt pad c k key).map fun ct => (key, ct)

def texts (l : List (RKey × Str)) : List Str := l.map fun e => e.1.text ++ c!"=" ++ e.2

theorem renderAll_append (l m : List (RKey × RContent)) : renderAll w rec (l ++ m) =
    (do let a ← renderAll w rec l; let b ← renderAll w rec m; return a ++ b) := by
  induction l with
  | nil => 
    cases h : renderAll w rec m <;> simp [renderAll, h, bind, Except.bind, pure, Except.pure]
  | cons e r ih =>
    simp only [List.cons_append, renderAll, ih]
    cases render w rec e.2 <;> simp only [bind, Except.bind, pure, Except.pure]
    cases renderAll w rec r <;> simp only [bind, Except.bind, pure, Except.pure]
    cases renderAll w rec m <;> simp [bind, Except.bind, pure, Except.pure]

theorem leaf_aspects (w : RWorld) (rec) (c : Common) (k : Leaf) : leafAspects w k =
    (renderAll w rec (entries subclassKeys w.padYear c (.leaf k))).map texts := by
  cases k with
  | binary a b => cases a <;> cases b <;> rfl
  | date a b => cases a <;> cases b <;> rfl
  | datetime a b u => cases a <;> cases b <;> cases u <;> rfl
  | decimal a b => cases a <;> cases b <;> rfl
  | email a b m e => cases a <;> cases b <;> cases m <;> cases e <;> rfl
  | float a b => cases a <;> cases b <;> rfl
  | integer a b => cases a <;> cases b <;> rfl
  | surrogate l =>
    cases l with
    | nil => rfl
    | cons a r =>
      show (match docSorted (.list ((a :: r).map .str)) with
        | .ok s => (showR w c!"valid_surrogates" (.list s)).map fun t => [t]
        | .error _ => .error .typeError) = (renderAll w rec [(.surrogates, .sorted ((a :: r).map .str))]).map texts
      simp only [renderAll, render]
      cases docSorted (.list ((a :: r).map .str)) <;> rfl
  | text p a b s => cases a <;> cases b <;> cases s <;> rfl
  | time a b => cases a <;> cases b <;> rfl
  | token s => cases s <;> rfl
  | _ => rfl

theorem kind_aspects (w : RWorld) (rec) (c : Common) (k : RKind) : kindAspects w rec k =
    (renderAll w rec (entries subclassKeys w.padYear c k)).map texts := by
  cases k with
  | leaf k => exact leaf_aspects w rec c k
  | sequence i a b u =>
    cases h : rec i <;> cases a <;> cases b <;> cases u <;>
      simp [kindAspects, renderAll, render, h, entries, subclassKeys, shownAt, whenTrue, bind, Except.bind, Except.map, pure,
        Except.pure, reprPair, reprOpt, natVal, showR, texts, RKey.text]
  | map key v r =>
    have hr : ∀ o : Option Nat, entries subclassKeys w.padYear c (.map o v r) =
        entries [.key] w.padYear c (.map o v r) ++ ((.value, .part v) :: entries [.requiredKeys] w.padYear c (.map o v r)) := by
      intro o; cases o <;> cases r <;> rfl
    have h2 : reprSorted w c!"required_keys" r = (renderAll w rec (entries [.requiredKeys] w.padYear c (.map key v r))).map texts := by
      cases r with
      | nil => rfl
      | cons a r =>
        show (match docSorted (.list (a :: r)) with
          | .ok s => (showR w c!"required_keys" (.list s)).map fun t => [t]
          | .error _ => .error .typeError) = (renderAll w rec [(.requiredKeys, .sorted (a :: r))]).map texts
        simp only [renderAll, render]
        cases docSorted (.list (a :: r)) <;> rfl
    have h1 : reprKey rec key = (renderAll w rec (entries [.key] w.padYear c (.map key v r))).map texts := by
      cases key with
      | none => rfl
      | some a =>
        show (rec a).map _ = (renderAll w rec [(.key, .part a)]).map texts
        simp only [renderAll, render]
        cases rec a <;> rfl
    rw [hr, renderAll_append]
    simp only [kindAspects, h1, h2, renderAll, render]
    cases renderAll w rec (entries [.key] w.padYear c (.map key v r)) <;> try rfl
    cases rec v <;> try rfl
    cases renderAll w rec (entries [.requiredKeys] w.padYear c (.map key v r)) <;> try rfl
    simp [bind, Except.bind, Except.map, pure, Except.pure, texts, RKey.text]
  | tuple b =>
    show _ = (renderAll w rec [(.values, .part b)]).map texts
    simp only [kindAspects, renderAll, render]
    cases rec b <;> rfl
  | union b =>
    show _ = (renderAll w rec [(.fields, .part b)]).map texts
    simp only [kindAspects, renderAll, render]
    cases rec b <;> rfl
  | «structure» b d s o =>
    have hd : reprDisc w d = (renderAll w rec (entries [.polymorphicOn] w.padYear c (.structure b d s o))).map texts := by
      cases d with
      | none => rfl
      | some d => cases d <;> rfl
    have hs : (.ok (if s then [] else [c!"strict=False"]) : Except PyErr (List Str)) =
        (renderAll w rec (entries [.strict] w.padYear c (.structure b d s o))).map texts := by
      cases s <;> rfl
    have ho : reprWhen (!o.isEmpty) (showR w c!"key_order" (.list (o.map .str))) =
        (renderAll w rec (entries [.keyOrder] w.padYear c (.structure b d s o))).map texts := by
      cases o <;> rfl
    have hr : entries subclassKeys w.padYear c (.structure b d s o) =
        (.members, .part b) :: (entries [.polymorphicOn] w.padYear c (.structure b d s o) ++
          (entries [.strict] w.padYear c (.structure b d s o) ++ entries [.keyOrder] w.padYear c (.structure b d s o))) := by
      cases d <;> cases s <;> cases o <;> rfl
    rw [hr]
    simp only [kindAspects, hd, ho, renderAll, render, renderAll_append]
    cases rec b <;> try rfl
    cases renderAll w rec (entries [.polymorphicOn] w.padYear c (.structure b d s o)) <;> try rfl
    revert hs
    cases renderAll w rec (entries [.strict] w.padYear c (.structure b d s o)) with
    | error e => intro hs; cases hs
    | ok l =>
      intro hs
      have hs : (if s then [] else [c!"strict=False"]) = texts l := Except.ok.inj hs
      rw [hs]
      cases renderAll w rec (entries [.keyOrder] w.padYear c (.structure b d s o)) <;> try rfl
      simp [bind, Except.bind, Except.map, pure, Except.pure, texts, RKey.text]

theorem name_aspects (w : RWorld) (rec) (c : Common) (k : RKind) : reprName w c.name =
    (renderAll w rec (entries [.name] w.padYear c k)).map texts := by
  rcases h : c.name with _ | _ | ⟨a, s⟩ <;> simp [entries, shownAt, h, whenTrue, reprName, renderAll, render] <;> rfl

theorem showR_arg (w : RWorld) (rec) (key : Str) (v : Val) : showR w key v = (render w rec (.arg v)).map fun t => key ++ c!"=" ++ t := by
  cases v <;> try rfl
  rename_i l
  rcases l with _ | ⟨a, _ | ⟨b, r⟩⟩ <;> rfl

theorem when_arg (w : RWorld) (rec) (key : RKey) (p : Bool) (v : Val) : reprWhen p (showR w key.text v) =
    (renderAll w rec ((whenTrue p (.arg v)).map fun ct => (key, ct)).toList).map texts := by
  cases p with
  | false => rfl
  | true =>
    simp only [reprWhen, if_true, showR_arg w rec, whenTrue, Option.map, Option.toList, renderAll]
    cases render w rec (.arg v) <;> rfl

theorem when_flag (w : RWorld) (rec) (key : RKey) (p : Bool) :
    renderAll w rec ((whenTrue p (.flag true)).map fun ct => (key, ct)).toList = .ok (if p then [(key, c!"True")] else []) := by
  cases p <;> rfl

theorem tail_aspects (w : RWorld) (rec) (c : Common) (k : RKind) : tailAspects w c =
    (renderAll w rec (entries [.constant, .default, .nonnull, .required, .ignoreNull, .title] w.padYear c k)).map texts := by
  have hr : entries [.constant, .default, .nonnull, .required, .ignoreNull, .title] w.padYear c k =
      ((whenTrue c.constant.truthy (.flag true)).map fun ct => (RKey.constant, ct)).toList ++
      (((whenTrue (!c.default.isNone) (.arg c.default)).map fun ct => (RKey.default, ct)).toList ++
      (((whenTrue c.nonnull (.flag true)).map fun ct => (RKey.nonnull, ct)).toList ++
      (((whenTrue c.required (.flag true)).map fun ct => (RKey.required, ct)).toList ++
      (((whenTrue c.ignoreNull (.flag true)).map fun ct => (RKey.ignoreNull, ct)).toList ++
      ((whenTrue c.title.truthy (.arg c.title)).map fun ct => (RKey.title, ct)).toList)))) := by
    simp only [entries, shownAt]
    generalize c.constant.truthy = p1
    generalize (!c.default.isNone) = p2
    generalize c.nonnull = p3
    generalize c.required = p4
    generalize c.ignoreNull = p5
    generalize c.title.truthy = p6
    cases p1 <;> cases p2 <;> cases p3 <;> cases p4 <;> cases p5 <;> cases p6 <;> rfl
  rw [hr]
  simp only [renderAll_append, when_flag]
  have h1 := when_arg w rec .default (!c.default.isNone) c.default
  have h2 := when_arg w rec .title c.title.truthy c.title
  simp only [tailAspects]
  rw [show c!"default" = RKey.default.text from rfl, h1, show c!"title" = RKey.title.text from rfl, h2]
  cases renderAll w rec ((whenTrue (!c.default.isNone) (.arg c.default)).map fun ct => (RKey.default, ct)).toList <;> try rfl
  cases renderAll w rec ((whenTrue c.title.truthy (.arg c.title)).map fun ct => (RKey.title, ct)).toList <;> try rfl
  simp only [bind, Except.bind, Except.map, pure, Except.pure, texts, List.map_append]
  cases c.constant.truthy <;> cases c.nonnull <;> cases c.required <;> cases c.ignoreNull <;> rfl

/-- The text of a field is made of what it shows, key by key. -/
theorem field_text (w : RWorld) (n : Nat) (o : List Nat) (i : Nat) (cls : Str) (c : Common) (k : RKind)
    (h : w.cell i = .field cls c k) (t : Str) : reprCell w (n + 1) o i = .ok t ↔
    ∃ ts, renderAll w (reprCell w n o) (entries RKey.all w.padYear c k) = .ok ts ∧
      t = cls ++ c!"(" ++ joinStr c!", " (texts ts) ++ c!")" := by
  have hr : entries RKey.all w.padYear c k = entries [.name] w.padYear c k ++ (entries subclassKeys w.padYear c k ++
      entries [.constant, .default, .nonnull, .required, .ignoreNull, .title] w.padYear c k) := by
    simp only [entries, RKey.all, ← List.filterMap_append]; rfl
  rw [hr]
  simp only [reprCell, h, kind_aspects w (reprCell w n o) c k, name_aspects w (reprCell w n o) c k,
    tail_aspects w (reprCell w n o) c k, renderAll_append]
  cases renderAll w (reprCell w n o) (entries subclassKeys w.padYear c k) with
  | error e =>
    cases renderAll w (reprCell w n o) (entries [.name] w.padYear c k) <;>
      simp [bind, Except.bind, Except.map, pure, Except.pure]
  | ok l1 =>
    cases renderAll w (reprCell w n o) (entries [.name] w.padYear c k) <;>
    cases renderAll w (reprCell w n o) (entries [.constant, .default, .nonnull, .required, .ignoreNull, .title] w.padYear c k) <;>
      simp [bind, Except.bind, Except.map, pure, Except.pure, texts]
    exact eq_comm

/-! ### what is shown -/

theorem mem_all (key : RKey) : key ∈ RKey.all := by cases key <;> decide

theorem mem_entries {pad : Bool} {c : Common} {k : RKind} {e : RKey × RContent} :
    e ∈ entries RKey.all pad c k ↔ shownAt pad c k e.1 = some e.2 := by
  obtain ⟨key, ct⟩ := e
  simp only [entries, List.mem_filterMap]
  constructor
  · rintro ⟨key', _, h⟩
    cases h' : shownAt pad c k key' with
    | none => rw [h'] at h; cases h
    | some ct' => rw [h'] at h; cases h; exact h'
  · intro h
    exact ⟨key, mem_all key, by rw [h]; rfl⟩

theorem entries_keys (pad : Bool) (c : Common) (k : RKind) (keys : List RKey) :
    (entries keys pad c k).map (·.1) = keys.filter fun key => (shownAt pad c k key).isSome := by
  induction keys with
  | nil => rfl
  | cons key r ih =>
    simp only [entries] at ih ⊢
    rw [List.filterMap_cons, List.filter_cons]
    cases shownAt pad c k key <;> simp [ih]

theorem renderAll_all {l : List (RKey × RContent)} {ts : List (RKey × Str)} (h : renderAll w rec l = .ok ts) :
    All2 (fun e s => e.1 = s.1 ∧ render w rec e.2 = .ok s.2) l ts := by
  induction l generalizing ts with
  | nil => cases h; exact .nil
  | cons e r ih =>
    simp only [renderAll] at h
    cases h1 : render w rec e.2 with
    | error x => rw [h1] at h; cases h
    | ok t =>
      cases h2 : renderAll w rec r with
      | error x => rw [h1, h2] at h; cases h
      | ok l' => rw [h1, h2] at h; cases h; exact .cons ⟨rfl, h1⟩ (ih h2)

theorem renderAll_of {l : List (RKey × RContent)} {ts : List (RKey × Str)}
    (h : All2 (fun e s => e.1 = s.1 ∧ render w rec e.2 = .ok s.2) l ts) : renderAll w rec l = .ok ts := by
  induction h with
  | nil => rfl
  | cons h _ ih => simp only [renderAll, h.2, ih]; rw [h.1]; rfl

theorem renderAll_possible {l : List (RKey × RContent)} :
    (∃ ts, renderAll w rec l = .ok ts) ↔ ∀ e ∈ l, ∃ t, render w rec e.2 = .ok t := by
  induction l with
  | nil => exact ⟨fun _ e he => (nomatch he), fun _ => ⟨[], rfl⟩⟩
  | cons e r ih =>
    constructor
    · rintro ⟨ts, h⟩
      have h := renderAll_all h
      cases h with
      | cons h1 h2 =>
        intro x hx
        rcases List.mem_cons.1 hx with rfl | hx
        · exact ⟨_, h1.2⟩
        · exact ih.1 ⟨_, renderAll_of h2⟩ x hx
    · intro h
      obtain ⟨t, ht⟩ := h e (List.mem_cons_self ..)
      obtain ⟨ts, hts⟩ := ih.2 fun x hx => h x (List.mem_cons_of_mem _ hx)
      exact ⟨(e.1, t) :: ts, by simp only [renderAll, ht, hts]; rfl⟩

theorem render_renders {ct : RContent} {t : Str} (h : render w rec ct = .ok t) : Renders w (fun j s => rec j = .ok s) ct t := by
  cases ct with
  | val v => cases h; exact .val v
  | arg v =>
    by_cases hv : ∃ l, v = .tuple l
    · obtain ⟨l, rfl⟩ := hv
      rcases l with _ | ⟨a, _ | ⟨b, r⟩⟩
      · cases h
      · cases h; exact .single a
      · cases h
    · have hv' : ∀ l, v ≠ .tuple l := fun l hl => hv ⟨l, hl⟩
      have : render w rec (.arg v) = .ok (w.repr v) := by
        cases v <;> first | rfl | exact absurd rfl (hv' _)
      rw [this] at h; cases h
      exact .arg v hv'
  | each vs => cases h; exact .each vs
  | sorted vs =>
    simp only [render] at h
    rcases docSorted_list vs with ⟨_, s, h1, h2, h3⟩ | ⟨_, h1⟩
    · rw [h1] at h; cases h; exact .sorted vs s h2 h3
    · rw [h1] at h; cases h
  | flag b => cases b <;> cases h; exacts [.no, .yes]
  | part i => exact .part i t h

theorem render_cannot {ct : RContent} (h : CannotShow ct) : render w rec ct = .error .typeError := by
  cases h with
  | arg l hl => rcases l with _ | ⟨a, _ | ⟨b, r⟩⟩ <;> first | rfl | exact absurd rfl hl
  | sorted vs hs =>
    rcases docSorted_list vs with ⟨h1, _⟩ | ⟨_, h1⟩
    · exact absurd h1 hs
    · simp only [render, h1]

theorem render_can {ct : RContent} (h : ¬ CannotShow ct) : (∃ t, render w rec ct = .ok t) ∨ ∃ j, ct = .part j := by
  cases ct with
  | arg v =>
    by_cases hv : ∃ l, v = .tuple l
    · obtain ⟨l, rfl⟩ := hv
      rcases l with _ | ⟨a, _ | ⟨b, r⟩⟩
      · exact absurd (.arg [] (by decide)) h
      · exact .inl ⟨_, rfl⟩
      · exact absurd (.arg (a :: b :: r) (by simp)) h
    · have hv' : ∀ l, v ≠ .tuple l := fun l hl => hv ⟨l, hl⟩
      exact .inl ⟨w.repr v, by cases v <;> first | rfl | exact absurd rfl (hv' _)⟩
  | sorted vs =>
    rcases docSorted_list vs with ⟨_, s, h1, _⟩ | ⟨h2, _⟩
    · exact .inl ⟨w.repr (.list s), by simp only [render, h1]⟩
    · exact absurd (.sorted vs h2) h
  | flag b => exact .inl (by cases b <;> exact ⟨_, rfl⟩)
  | part i => exact .inr ⟨i, rfl⟩
  | val v => exact .inl ⟨_, rfl⟩
  | each vs => exact .inl ⟨_, rfl⟩

/-! ### tuples and dicts -/

theorem items_all {l : List Nat} {ts : List Str} (h : reprItems rec l = .ok ts) : All2 (fun j t => rec j = .ok t) l ts := by
  induction l generalizing ts with
  | nil => cases h; exact .nil
  | cons i r ih =>
    simp only [reprItems] at h
    cases h1 : rec i with
    | error x => rw [h1] at h; cases h
    | ok t =>
      cases h2 : reprItems rec r with
      | error x => rw [h1, h2] at h; cases h
      | ok l' => rw [h1, h2] at h; cases h; exact .cons h1 (ih h2)

theorem items_of {l : List Nat} {ts : List Str} (h : All2 (fun j t => rec j = .ok t) l ts) : reprItems rec l = .ok ts := by
  induction h with
  | nil => rfl
  | cons h _ ih => simp only [reprItems, h, ih]; rfl

def entryTexts (w : RWorld) (l : List (Val × Nat)) (ts : List Str) : List Str :=
  (l.zip ts).map fun e => w.repr e.1.1 ++ c!": " ++ e.2

theorem entries_all {l : List (Val × Nat)} {us : List Str} (h : reprEntries w rec l = .ok us) :
    ∃ ts, us = entryTexts w l ts ∧ All2 (fun e t => rec e.2 = .ok t) l ts := by
  induction l generalizing us with
  | nil => cases h; exact ⟨[], rfl, .nil⟩
  | cons e r ih =>
    obtain ⟨k, i⟩ := e
    simp only [reprEntries] at h
    cases h1 : rec i with
    | error x => rw [h1] at h; cases h
    | ok t =>
      cases h2 : reprEntries w rec r with
      | error x => rw [h1, h2] at h; cases h
      | ok l' =>
        rw [h1, h2] at h; cases h
        obtain ⟨ts, rfl, hts⟩ := ih h2
        exact ⟨t :: ts, rfl, .cons h1 hts⟩

theorem entries_of {l : List (Val × Nat)} {ts : List Str} (h : All2 (fun e t => rec e.2 = .ok t) l ts) :
    reprEntries w rec l = .ok (entryTexts w l ts) := by
  induction h with
  | nil => rfl
  | @cons a b l m h _ ih =>
    obtain ⟨k, i⟩ := a
    have h : rec i = .ok b := h
    simp only [reprEntries, h, ih]; rfl

theorem all2_exists {α β : Type} {R : α → β → Prop} {l : List α} : (∃ ts, All2 R l ts) ↔ ∀ a ∈ l, ∃ b, R a b := by
  induction l with
  | nil => exact ⟨fun _ a ha => (nomatch ha), fun _ => ⟨[], .nil⟩⟩
  | cons a r ih =>
    constructor
    · rintro ⟨ts, h⟩
      cases h with
      | cons h1 h2 =>
        intro x hx
        rcases List.mem_cons.1 hx with rfl | hx
        · exact ⟨_, h1⟩
        · exact ih.1 ⟨_, h2⟩ x hx
    · intro h
      obtain ⟨t, ht⟩ := h a (List.mem_cons_self ..)
      obtain ⟨ts, hts⟩ := ih.2 fun x hx => h x (List.mem_cons_of_mem _ hx)
      exact ⟨t :: ts, .cons ht hts⟩

theorem all2_mem {α β : Type} {R S : α → β → Prop} {l : List α} {m : List β} (h : All2 R l m)
    (hi : ∀ a ∈ l, ∀ b, R a b → S a b) : All2 S l m := by
  induction h with
  | nil => exact .nil
  | cons h _ ih =>
    exact .cons (hi _ (List.mem_cons_self ..) _ h) (ih fun a ha => hi a (List.mem_cons_of_mem _ ha))

theorem all2_right {α β : Type} {R : α → β → Prop} {l : List α} {m : List β} (h : All2 R l m) : ∀ b ∈ m, ∃ a ∈ l, R a b := by
  induction h with
  | nil => intro b hb; cases hb
  | cons h _ ih =>
    intro b hb
    rcases List.mem_cons.1 hb with rfl | hb
    · exact ⟨_, List.mem_cons_self .., h⟩
    · obtain ⟨a, ha, hr⟩ := ih b hb
      exact ⟨a, List.mem_cons_of_mem _ ha, hr⟩

/-! ### one object -/

/-- The object is a tuple or dict. -/
def IsBox (w : RWorld) (i : Nat) : Prop := (∃ l, w.cell i = .tuple l) ∨ ∃ l, w.cell i = .dict l

theorem cell_cut {o : List Nat} {i : Nat} (hb : IsBox w i) (hi : i ∈ o) :
    ∃ t, ∀ n, reprCell w (n + 1) o i = .ok t := by
  rcases hb with ⟨l, h⟩ | ⟨l, h⟩
  · exact ⟨c!"(...)", fun n => by simp [reprCell, h, hi]⟩
  · exact ⟨c!"{...}", fun n => by simp [reprCell, h, hi]⟩

/-- The text of one object depends on those of its parts. -/
theorem cell_transfer {n n' : Nat} {o o' : List Nat} {i : Nat} {t : Str} (hb : IsBox w i → (i ∈ o ↔ i ∈ o'))
    (hp : ∀ j t, ShowsPart w i j → reprCell w n (inProgress w o i) j = .ok t → reprCell w n' (inProgress w o' i) j = .ok t)
    (h : reprCell w (n + 1) o i = .ok t) : reprCell w (n' + 1) o' i = .ok t := by
  cases hc : w.cell i with
  | field cls c k =>
    obtain ⟨ts, h1, rfl⟩ := (field_text w n o i cls c k hc t).1 h
    refine (field_text w n' o' i cls c k hc _).2 ⟨ts, renderAll_of ?_, rfl⟩
    refine all2_mem (renderAll_all h1) fun e he s hs => ⟨hs.1, ?_⟩
    have he := mem_entries.1 he
    by_cases hpart : ∃ j, e.2 = .part j
    · obtain ⟨j, hj⟩ := hpart
      rw [hj] at he
      have h2 := hs.2
      rw [hj] at h2 ⊢
      have := hp j s.2 (.field cls c k e.1 j hc he)
      simp only [inProgress, hc] at this
      exact this h2
    · have h2 := hs.2
      rw [← h2]
      cases hx : e.2 with
      | part j => exact absurd ⟨j, hx⟩ hpart
      | arg v => cases v with
        | tuple l => rcases l with _ | ⟨a, _ | ⟨b, r⟩⟩ <;> rfl
        | _ => rfl
      | flag b => cases b <;> rfl
      | _ => rfl
  | undefined => simpa [reprCell, hc] using h
  | tuple items =>
    have hb := hb (.inl ⟨_, hc⟩)
    simp only [reprCell, hc] at h ⊢
    by_cases hi : i ∈ o
    · rw [if_pos (by simpa using hi)] at h
      rw [if_pos (by simpa using hb.1 hi)]; exact h
    · rw [if_neg (by simpa using hi)] at h
      rw [if_neg (by simpa using fun x => hi (hb.2 x))]
      cases h1 : reprItems (reprCell w n (i :: o)) items with
      | error x => rw [h1] at h; cases h
      | ok ts =>
        rw [h1] at h
        rw [items_of (all2_mem (items_all h1) fun a ha b hr => by
          have := hp a b (.tuple items a hc ha)
          simp only [inProgress, hc] at this
          exact this hr)]
        exact h
  | dict entries =>
    have hb := hb (.inr ⟨_, hc⟩)
    simp only [reprCell, hc] at h ⊢
    by_cases hi : i ∈ o
    · rw [if_pos (by simpa using hi)] at h
      rw [if_pos (by simpa using hb.1 hi)]; exact h
    · rw [if_neg (by simpa using hi)] at h
      rw [if_neg (by simpa using fun x => hi (hb.2 x))]
      cases h1 : reprEntries w (reprCell w n (i :: o)) entries with
      | error x => rw [h1] at h; cases h
      | ok us =>
        rw [h1] at h
        obtain ⟨ts, rfl, hts⟩ := entries_all h1
        rw [entries_of (all2_mem hts fun a ha b hr => by
          have := hp a.2 b (.dict entries a.1 a.2 hc ha)
          simp only [inProgress, hc] at this
          exact this hr)]
        exact h

/-- When the text of one object can be made. -/
theorem cell_possible {n : Nat} {o : List Nat} {i : Nat} (hb : ¬ (IsBox w i ∧ i ∈ o)) :
    (∃ t, reprCell w (n + 1) o i = .ok t) ↔
      ¬ UnshowableField w i ∧ ∀ j, ShowsPart w i j → ∃ t, reprCell w n (inProgress w o i) j = .ok t := by
  cases hc : w.cell i with
  | field cls c k =>
    have hw : inProgress w o i = o := by simp only [inProgress, hc]
    have h1 : (∃ t, reprCell w (n + 1) o i = .ok t) ↔
        ∃ ts, renderAll w (reprCell w n o) (entries RKey.all w.padYear c k) = .ok ts :=
      ⟨fun ⟨t, h⟩ => let ⟨ts, h, _⟩ := (field_text w n o i cls c k hc t).1 h; ⟨ts, h⟩,
        fun ⟨ts, h⟩ => ⟨_, (field_text w n o i cls c k hc _).2 ⟨ts, h, rfl⟩⟩⟩
    rw [h1, renderAll_possible, hw]
    constructor
    · intro h
      constructor
      · rintro ⟨cls', c', k', key, ct, hc', h2, h3⟩
        rw [hc] at hc'; cases hc'
        obtain ⟨t, ht⟩ := h (key, ct) (mem_entries.2 h2)
        rw [render_cannot h3] at ht; cases ht
      · intro j hj
        cases hj with
        | field cls' c' k' key _ hc' h2 =>
          rw [hc] at hc'; cases hc'
          exact h (key, .part j) (mem_entries.2 h2)
        | tuple items _ hc' => rw [hc] at hc'; cases hc'
        | dict es key _ hc' => rw [hc] at hc'; cases hc'
    · rintro ⟨h2, h3⟩ e he
      have he := mem_entries.1 he
      by_cases hcs : CannotShow e.2
      · exact absurd ⟨cls, c, k, e.1, e.2, hc, he, hcs⟩ h2
      · rcases render_can (w := w) (rec := reprCell w n o) hcs with h | ⟨j, hj⟩
        · exact h
        · rw [hj] at he ⊢
          exact h3 j (.field cls c k e.1 j hc he)
  | undefined =>
    refine ⟨fun _ => ⟨?_, ?_⟩, fun _ => ⟨w.placeholder i, by simp only [reprCell, hc]⟩⟩
    · rintro ⟨_, _, _, _, _, hc', _⟩; rw [hc] at hc'; cases hc'
    · intro j hj
      cases hj with
      | field _ _ _ _ _ hc' => rw [hc] at hc'; cases hc'
      | tuple _ _ hc' => rw [hc] at hc'; cases hc'
      | dict _ _ _ hc' => rw [hc] at hc'; cases hc'
  | tuple items =>
    have hi : i ∉ o := fun h => hb ⟨.inl ⟨_, hc⟩, h⟩
    have hu : ¬ UnshowableField w i := by
      rintro ⟨_, _, _, _, _, hc', _⟩; rw [hc] at hc'; cases hc'
    have h1 : (∃ t, reprCell w (n + 1) o i = .ok t) ↔ ∃ ts, All2 (fun j t => reprCell w n (i :: o) j = .ok t) items ts := by
      simp only [reprCell, hc, if_neg (show ¬ o.contains i = true by simpa using hi)]
      constructor
      · rintro ⟨t, h⟩
        cases h2 : reprItems (reprCell w n (i :: o)) items with
        | error x => rw [h2] at h; cases h
        | ok ts => exact ⟨ts, items_all h2⟩
      · rintro ⟨ts, h⟩
        exact ⟨tupleText ts, by rw [items_of h]; rfl⟩
    rw [h1, all2_exists]
    simp only [inProgress, hc]
    constructor
    · intro h
      refine ⟨hu, fun j hj => ?_⟩
      cases hj with
      | field _ _ _ _ _ hc' => rw [hc] at hc'; cases hc'
      | tuple items' _ hc' hm => rw [hc] at hc'; cases hc'; exact h j hm
      | dict _ _ _ hc' => rw [hc] at hc'; cases hc'
    · rintro ⟨_, h⟩ j hj
      exact h j (.tuple items j hc hj)
  | dict es =>
    have hi : i ∉ o := fun h => hb ⟨.inr ⟨_, hc⟩, h⟩
    have hu : ¬ UnshowableField w i := by
      rintro ⟨_, _, _, _, _, hc', _⟩; rw [hc] at hc'; cases hc'
    have h1 : (∃ t, reprCell w (n + 1) o i = .ok t) ↔
        ∃ ts, All2 (fun e t => reprCell w n (i :: o) e.2 = .ok t) es ts := by
      simp only [reprCell, hc, if_neg (show ¬ o.contains i = true by simpa using hi)]
      constructor
      · rintro ⟨t, h⟩
        cases h2 : reprEntries w (reprCell w n (i :: o)) es with
        | error x => rw [h2] at h; cases h
        | ok us => exact let ⟨ts, _, h⟩ := entries_all h2; ⟨ts, h⟩
      · rintro ⟨ts, h⟩
        exact ⟨_, by rw [entries_of h]; rfl⟩
    rw [h1, all2_exists]
    simp only [inProgress, hc]
    constructor
    · intro h
      refine ⟨hu, fun j hj => ?_⟩
      cases hj with
      | field _ _ _ _ _ hc' => rw [hc] at hc'; cases hc'
      | tuple _ _ hc' => rw [hc] at hc'; cases hc'
      | dict es' key _ hc' hm => rw [hc] at hc'; cases hc'; exact h _ hm
    · rintro ⟨_, h⟩ e he
      exact h e.2 (.dict es e.1 e.2 hc he)

/-! ### depth and context -/

theorem mono (n : Nat) : ∀ (o : List Nat) (i : Nat) (t : Str), reprCell w n o i = .ok t → reprCell w (n + 1) o i = .ok t := by
  induction n with
  | zero => intro o i t h; cases h
  | succ n ih => intro o i t h; exact cell_transfer (fun _ => Iff.rfl) (fun j t _ hj => ih _ j t hj) h

theorem mono_le {n m : Nat} (hle : n ≤ m) {o : List Nat} {i : Nat} {t : Str} (h : reprCell w n o i = .ok t) :
    reprCell w m o i = .ok t := by
  induction hle with
  | refl => exact h
  | step _ ih => exact mono _ _ _ _ ih

theorem ShownBy.head {i j k : Nat} (h : ShowsPart w i j) (h' : ShownBy w j k) : ShownBy w i k := by
  induction h' with
  | self => exact .step i j .self h
  | step a b _ hb ih => exact .step a b ih hb

theorem mem_within {o : List Nat} {i j : Nat} : j ∈ inProgress w o i ↔ (j = i ∧ IsBox w i) ∨ j ∈ o := by
  unfold inProgress
  cases hc : w.cell i with
  | field cls c k =>
    refine ⟨.inr, fun h => ?_⟩
    rcases h with ⟨_, ⟨_, h⟩ | ⟨_, h⟩⟩ | h
    · rw [hc] at h; cases h
    · rw [hc] at h; cases h
    · exact h
  | undefined =>
    refine ⟨.inr, fun h => ?_⟩
    rcases h with ⟨_, ⟨_, h⟩ | ⟨_, h⟩⟩ | h
    · rw [hc] at h; cases h
    · rw [hc] at h; cases h
    · exact h
  | tuple l => simp only [List.mem_cons, and_iff_left (show IsBox w i from .inl ⟨l, hc⟩)]
  | dict l => simp only [List.mem_cons, and_iff_left (show IsBox w i from .inr ⟨l, hc⟩)]

theorem context (n : Nat) : ∀ (o o' : List Nat) (i : Nat) (t : Str), (∀ j, ShownBy w i j → (j ∈ o ↔ j ∈ o')) →
    reprCell w n o i = .ok t → reprCell w n o' i = .ok t := by
  induction n with
  | zero => intro o o' i t _ h; cases h
  | succ n ih =>
    intro o o' i t ho h
    refine cell_transfer (fun _ => ho i .self) (fun j t hj hr => ih _ _ j t (fun k hk => ?_) hr) h
    rw [mem_within, mem_within, ho k (ShownBy.head hj hk)]

/-! ### success implies the absence of obstacles -/

/-- The calls made while the text of an object is made. -/
inductive Called (w : RWorld) (n₀ i₀ : Nat) : Nat → List Nat → Nat → Prop
  | root : Called w n₀ i₀ n₀ [] i₀
  | part (n : Nat) (o : List Nat) (j k : Nat) : Called w n₀ i₀ (n + 1) o j → ¬ (IsBox w j ∧ j ∈ o) → ShowsPart w j k →
      Called w n₀ i₀ n (inProgress w o j) k

variable {n₀ i₀ : Nat}

theorem called_ok (h₀ : ∃ t, reprCell w n₀ [] i₀ = .ok t) {n : Nat} {o : List Nat} {j : Nat} (h : Called w n₀ i₀ n o j) :
    ∃ t, reprCell w n o j = .ok t := by
  induction h with
  | root => exact h₀
  | part n o j k _ hg hp ih => exact ((cell_possible hg).1 ih).2 k hp

theorem called_open {n : Nat} {o : List Nat} {j : Nat} (h : Called w n₀ i₀ n o j) :
    ∀ b ∈ o, ∃ n' o', Called w n₀ i₀ (n' + 1) o' b ∧ ¬ (IsBox w b ∧ b ∈ o') := by
  induction h with
  | root => intro b hb; cases hb
  | part n o j k hc hg hp ih =>
    intro b hb
    rcases mem_within.1 hb with ⟨rfl, _⟩ | hb
    · exact ⟨n, o, hc, hg⟩
    · exact ih b hb

theorem called_reached (h₀ : ∃ t, reprCell w n₀ [] i₀ = .ok t) {j : Nat} (h : ShownBy w i₀ j) :
    ∃ n o, Called w n₀ i₀ (n + 1) o j ∧ ¬ (IsBox w j ∧ j ∈ o) := by
  induction h with
  | self =>
    cases n₀ with
    | zero => obtain ⟨t, ht⟩ := h₀; cases ht
    | succ m => exact ⟨m, [], .root, fun h => nomatch h.2⟩
  | step j k _ hp ih =>
    obtain ⟨n, o, hc, hg⟩ := ih
    have hk : Called w n₀ i₀ n (inProgress w o j) k := .part n o j k hc hg hp
    by_cases hx : IsBox w k ∧ k ∈ inProgress w o j
    · exact called_open hk k hx.2
    · cases n with
      | zero => obtain ⟨t, ht⟩ := called_ok h₀ hk; cases ht
      | succ m => exact ⟨m, _, hk, hx⟩

theorem field_not_box {i : Nat} (h : ∃ cls c k, w.cell i = .field cls c k) : ¬ IsBox w i := by
  obtain ⟨cls, c, k, h⟩ := h
  rintro (⟨l, h'⟩ | ⟨l, h'⟩) <;> rw [h] at h' <;> cases h'

theorem within_field {o : List Nat} {i : Nat} (h : ∃ cls c k, w.cell i = .field cls c k) : inProgress w o i = o := by
  obtain ⟨cls, c, k, h⟩ := h
  simp only [inProgress, h]

theorem called_chain (h₀ : ∃ t, reprCell w n₀ [] i₀ = .ok t) {j k : Nat} (h : DirectChain w j k) {n : Nat} {o : List Nat}
    (hc : Called w n₀ i₀ (n + 1) o j) : ∃ m, m < n ∧ Called w n₀ i₀ (m + 1) o k := by
  have one : ∀ {n : Nat} {a b : Nat}, ShowsDirectly w a b → Called w n₀ i₀ (n + 1) o a →
      ∃ m, m < n ∧ Called w n₀ i₀ (m + 1) o b := by
    intro n a b hs hc
    have := Called.part n o a b hc (fun h => field_not_box hs.2.1 h.1) hs.1
    rw [within_field hs.2.1] at this
    cases n with
    | zero => obtain ⟨t, ht⟩ := called_ok h₀ this; cases ht
    | succ m => exact ⟨m, Nat.lt_succ_self m, this⟩
  induction h with
  | one b hs => exact one hs hc
  | more b d _ hs ih =>
    obtain ⟨m, hm, hc'⟩ := ih
    obtain ⟨m', hm', hc''⟩ := one hs hc'
    exact ⟨m', Nat.lt_trans hm' hm, hc''⟩

theorem no_loop (h₀ : ∃ t, reprCell w n₀ [] i₀ = .ok t) {j : Nat} (h : DirectChain w j j) {o : List Nat} (n : Nat) :
    ¬ Called w n₀ i₀ (n + 1) o j := by
  induction n using Nat.strongRecOn with
  | ind n ih =>
    intro hc
    obtain ⟨m, hm, hc'⟩ := called_chain h₀ h hc
    exact ih m hm hc'

theorem ok_clear (h₀ : ∃ t, reprCell w n₀ [] i₀ = .ok t) {j : Nat} (hj : ShownBy w i₀ j) :
    ¬ UnshowableField w j ∧ ¬ DirectChain w j j := by
  obtain ⟨n, o, hc, hg⟩ := called_reached h₀ hj
  exact ⟨((cell_possible hg).1 (called_ok h₀ hc)).1, fun h => no_loop h₀ h n hc⟩

/-! ### enough depth -/

/-- How many of the objects are not in a list. -/
def left (S o : List Nat) : Nat := (S.filter fun a => !o.contains a).length

theorem left_le (S o : List Nat) : left S o ≤ S.length := List.length_filter_le _ _

theorem left_cons_le (S o : List Nat) (i : Nat) : left S (i :: o) ≤ left S o := by
  induction S with
  | nil => exact Nat.le_refl _
  | cons a r ih =>
    unfold left at ih ⊢
    rw [List.filter_cons, List.filter_cons]
    by_cases h1 : a ∈ o
    · rw [if_neg (by simp [h1]), if_neg (by simp [h1])]; exact ih
    · by_cases h2 : a = i
      · rw [if_neg (by simp [h2]), if_pos (by simp [h1])]
        exact Nat.le_succ_of_le ih
      · rw [if_pos (by simp [h1, h2]), if_pos (by simp [h1])]
        exact Nat.succ_le_succ ih

theorem left_lt {S o : List Nat} {i : Nat} (hi : i ∈ S) (ho : i ∉ o) : left S (i :: o) < left S o := by
  induction S with
  | nil => cases hi
  | cons a r ih =>
    have hle := left_cons_le r o i
    unfold left at ih hle ⊢
    rw [List.filter_cons, List.filter_cons]
    by_cases h2 : a = i
    · subst h2
      rw [if_neg (by simp), if_pos (by simp [ho])]
      exact Nat.lt_succ_of_le hle
    · have hi : i ∈ r := (List.mem_cons.1 hi).resolve_left fun h => h2 h.symm
      by_cases h1 : a ∈ o
      · rw [if_neg (by simp [h1]), if_neg (by simp [h1])]; exact ih hi
      · rw [if_pos (by simp [h1, h2]), if_pos (by simp [h1])]
        exact Nat.succ_lt_succ (ih hi)

theorem enough {S : List Nat} (hS : ∀ j, ShownBy w i₀ j → j ∈ S)
    (hc : ∀ j, ShownBy w i₀ j → ¬ UnshowableField w j ∧ ¬ DirectChain w j j) (n : Nat) :
    ∀ (o chain : List Nat) (i : Nat), ShownBy w i₀ i →
      (∀ c ∈ chain, (∃ cls c k, w.cell i = .field cls c k) → DirectChain w c i) →
      left S o * (S.length + 2) + left S chain < n → ∃ t, reprCell w n o i = .ok t := by
  induction n with
  | zero => intro o chain i _ _ h; exact absurd h (Nat.not_lt_zero _)
  | succ n ih =>
    intro o chain i hi hch hlt
    by_cases hx : IsBox w i ∧ i ∈ o
    · obtain ⟨t, ht⟩ := cell_cut hx.1 hx.2
      exact ⟨t, ht n⟩
    · refine (cell_possible hx).2 ⟨(hc i hi).1, fun k hk => ?_⟩
      have hks : ShownBy w i₀ k := .step i k hi hk
      by_cases hb : IsBox w i
      · have hio : i ∉ o := fun h => hx ⟨hb, h⟩
        have hw : inProgress w o i = i :: o := by
          rcases hb with ⟨l, h⟩ | ⟨l, h⟩ <;> simp only [inProgress, h]
        rw [hw]
        refine ih (i :: o) [] k hks (fun c hc => nomatch hc) ?_
        have h1 := left_lt (hS i hi) hio
        have h2 := left_le S []
        have h3 : (left S (i :: o) + 1) * (S.length + 2) ≤ left S o * (S.length + 2) := Nat.mul_le_mul_right _ h1
        rw [Nat.add_mul] at h3
        omega
      · have hf : ∃ cls c k, w.cell i = .field cls c k := by
          cases hk with
          | field cls c k _ _ h => exact ⟨cls, c, k, h⟩
          | tuple l _ h => exact absurd (.inl ⟨l, h⟩) hb
          | dict l _ _ h => exact absurd (.inr ⟨l, h⟩) hb
        have hic : i ∉ chain := fun h => (hc i hi).2 (hch i h hf)
        rw [within_field hf]
        refine ih o (i :: chain) k hks (fun c hc' hkf => ?_) ?_
        · have hd : ShowsDirectly w i k := ⟨hk, hf, hkf⟩
          rcases List.mem_cons.1 hc' with rfl | hc'
          · exact .one c k hd
          · exact .more c i k (hch c hc' hf) hd
        · have := left_lt (hS i hi) hic
          omega

/-! ### errors -/

theorem renderAll_error {l : List (RKey × RContent)} {e : PyErr} (h : renderAll w rec l = .error e) :
    ∃ x ∈ l, render w rec x.2 = .error e := by
  induction l with
  | nil => cases h
  | cons x r ih =>
    simp only [renderAll] at h
    cases h1 : render w rec x.2 with
    | error y => rw [h1] at h; cases h; exact ⟨x, List.mem_cons_self .., h1⟩
    | ok t =>
      cases h2 : renderAll w rec r with
      | error y =>
        rw [h1, h2] at h; cases h
        obtain ⟨z, hz, hr⟩ := ih h2
        exact ⟨z, List.mem_cons_of_mem _ hz, hr⟩
      | ok l' => rw [h1, h2] at h; cases h

theorem render_error {ct : RContent} {e : PyErr} (h : render w rec ct = .error e) :
    (CannotShow ct ∧ e = .typeError) ∨ ∃ j, ct = .part j ∧ rec j = .error e := by
  by_cases hc : CannotShow ct
  · rw [render_cannot hc] at h; cases h; exact .inl ⟨hc, rfl⟩
  · rcases render_can (w := w) (rec := rec) hc with ⟨t, ht⟩ | ⟨j, rfl⟩
    · rw [ht] at h; cases h
    · exact .inr ⟨j, rfl, h⟩

theorem items_error {l : List Nat} {e : PyErr} (h : reprItems rec l = .error e) : ∃ j ∈ l, rec j = .error e := by
  induction l with
  | nil => cases h
  | cons i r ih =>
    simp only [reprItems] at h
    cases h1 : rec i with
    | error x => rw [h1] at h; cases h; exact ⟨i, List.mem_cons_self .., h1⟩
    | ok t =>
      cases h2 : reprItems rec r with
      | error x =>
        rw [h1, h2] at h; cases h
        obtain ⟨z, hz, hr⟩ := ih h2
        exact ⟨z, List.mem_cons_of_mem _ hz, hr⟩
      | ok l' => rw [h1, h2] at h; cases h

theorem dict_error {l : List (Val × Nat)} {e : PyErr} (h : reprEntries w rec l = .error e) : ∃ x ∈ l, rec x.2 = .error e := by
  induction l with
  | nil => cases h
  | cons x r ih =>
    obtain ⟨k, i⟩ := x
    simp only [reprEntries] at h
    cases h1 : rec i with
    | error x => rw [h1] at h; cases h; exact ⟨(k, i), List.mem_cons_self .., h1⟩
    | ok t =>
      cases h2 : reprEntries w rec r with
      | error x =>
        rw [h1, h2] at h; cases h
        obtain ⟨z, hz, hr⟩ := ih h2
        exact ⟨z, List.mem_cons_of_mem _ hz, hr⟩
      | ok l' => rw [h1, h2] at h; cases h

theorem entries_sub {keys : List RKey} {pad : Bool} {c : Common} {k : RKind} {e : RKey × RContent}
    (h : e ∈ entries keys pad c k) : shownAt pad c k e.1 = some e.2 := by
  obtain ⟨key, ct⟩ := e
  simp only [entries, List.mem_filterMap] at h
  obtain ⟨key', _, h⟩ := h
  cases h' : shownAt pad c k key' with
  | none => rw [h'] at h; cases h
  | some ct' => rw [h'] at h; cases h; exact h'

theorem cell_error {n : Nat} {o : List Nat} {i : Nat} {e : PyErr} (h : reprCell w (n + 1) o i = .error e) :
    (UnshowableField w i ∧ e = .typeError) ∨ ∃ j, ShowsPart w i j ∧ reprCell w n (inProgress w o i) j = .error e := by
  cases hc : w.cell i with
  | field cls c k =>
    have hall : ∀ keys, renderAll w (reprCell w n o) (entries keys w.padYear c k) = .error e →
        (UnshowableField w i ∧ e = .typeError) ∨ ∃ j, ShowsPart w i j ∧ reprCell w n (inProgress w o i) j = .error e := by
      intro keys hr
      obtain ⟨x, hx, hx'⟩ := renderAll_error hr
      have hx := entries_sub hx
      rcases render_error hx' with ⟨h1, h2⟩ | ⟨j, h1, h2⟩
      · exact .inl ⟨⟨cls, c, k, x.1, x.2, hc, hx, h1⟩, h2⟩
      · rw [h1] at hx
        refine .inr ⟨j, .field cls c k x.1 j hc hx, ?_⟩
        simpa only [inProgress, hc] using h2
    simp only [reprCell, hc, kind_aspects w (reprCell w n o) c k, name_aspects w (reprCell w n o) c k,
      tail_aspects w (reprCell w n o) c k] at h
    cases h1 : renderAll w (reprCell w n o) (entries subclassKeys w.padYear c k) with
    | error x => rw [h1] at h; cases h; exact hall _ h1
    | ok l1 =>
      rw [h1] at h
      cases h2 : renderAll w (reprCell w n o) (entries [.name] w.padYear c k) with
      | error x => rw [h2] at h; cases h; exact hall _ h2
      | ok l2 =>
        rw [h2] at h
        cases h3 : renderAll w (reprCell w n o)
            (entries [.constant, .default, .nonnull, .required, .ignoreNull, .title] w.padYear c k) with
        | error x => rw [h3] at h; cases h; exact hall _ h3
        | ok l3 => rw [h3] at h; cases h
  | undefined => simp only [reprCell, hc] at h; cases h
  | tuple l =>
    simp only [reprCell, hc] at h
    split at h
    · cases h
    · cases h1 : reprItems (reprCell w n (i :: o)) l with
      | ok ts => rw [h1] at h; cases h
      | error x =>
        rw [h1] at h; cases h
        obtain ⟨j, hj, hr⟩ := items_error h1
        exact .inr ⟨j, .tuple l j hc hj, by simpa only [inProgress, hc] using hr⟩
  | dict l =>
    simp only [reprCell, hc] at h
    split at h
    · cases h
    · cases h1 : reprEntries w (reprCell w n (i :: o)) l with
      | ok ts => rw [h1] at h; cases h
      | error x =>
        rw [h1] at h; cases h
        obtain ⟨j, hj, hr⟩ := dict_error h1
        exact .inr ⟨j.2, .dict l j.1 j.2 hc hj, by simpa only [inProgress, hc] using hr⟩

theorem error_cause (n : Nat) : ∀ (o : List Nat) (i : Nat) (e : PyErr), reprCell w n o i = .error e →
    e = .recursionError ∨ (e = .typeError ∧ ∃ j, ShownBy w i j ∧ UnshowableField w j) := by
  induction n with
  | zero => intro o i e h; cases h; exact .inl rfl
  | succ n ih =>
    intro o i e h
    rcases cell_error h with ⟨h1, h2⟩ | ⟨j, h1, h2⟩
    · exact .inr ⟨h2, i, .self, h1⟩
    · rcases ih _ j e h2 with h | ⟨h, k, hk, hu⟩
      · exact .inl h
      · exact .inr ⟨h, k, ShownBy.head h1 hk, hu⟩

end RP

open RP

/-- C79: the text of an object that is not in progress is what `DepictsCell` says, in terms of the texts of the objects it
refers to: for a field the class and, in a fixed order, the keys it shows. -/
theorem C79_text (w : RWorld) (n : Nat) (o : List Nat) (i : Nat) (t : Str) (h : reprCell w (n + 1) o i = .ok t) :
    (DepictsCell w (fun j s => reprCell w n (inProgress w o i) j = .ok s) (w.cell i) t ∧
      ((∃ cls c k, w.cell i = .field cls c k) ∨ i ∉ o)) ∨
    (w.cell i = .undefined ∧ t = w.placeholder i) ∨
    (i ∈ o ∧ (((∃ l, w.cell i = .tuple l) ∧ t = c!"(...)") ∨ (∃ l, w.cell i = .dict l) ∧ t = c!"{...}")) := by
  cases hc : w.cell i with
  | field cls c k =>
    obtain ⟨ts, h1, rfl⟩ := (field_text w n o i cls c k hc t).1 h
    have ha := renderAll_all h1
    have hk : ∀ {l : List (RKey × RContent)} {ts : List (RKey × Str)},
        All2 (fun e s => e.1 = s.1 ∧ render w (reprCell w n o) e.2 = .ok s.2) l ts → ts.map (·.1) = l.map (·.1) := by
      intro l ts h
      induction h with
      | nil => rfl
      | cons h _ ih => simp only [List.map_cons, ih, h.1]
    simp only [inProgress, hc]
    refine .inl ⟨.field cls c k ts ?_ ?_, .inl ⟨cls, c, k, rfl⟩⟩
    · rw [hk ha, entries_keys]
    · intro e he
      obtain ⟨x, hx, hr⟩ := all2_right ha e he
      have hx := mem_entries.1 hx
      rw [hr.1] at hx
      exact ⟨x.2, hx, render_renders hr.2⟩
  | undefined => simp only [reprCell, hc] at h; cases h; exact .inr (.inl ⟨rfl, rfl⟩)
  | tuple l =>
    simp only [reprCell, hc] at h
    split at h
    · rename_i hi
      cases h; exact .inr (.inr ⟨by simpa using hi, .inl ⟨⟨l, rfl⟩, rfl⟩⟩)
    · rename_i hi
      cases h1 : reprItems (reprCell w n (i :: o)) l with
      | error x => rw [h1] at h; cases h
      | ok ts =>
        rw [h1] at h; cases h
        have ha := items_all h1
        refine .inl ⟨?_, .inr (by simpa using hi)⟩
        simp only [inProgress, hc]
        by_cases hl : l.length = 1
        · match l, ts, ha with
          | [j], [t], .cons h .nil => exact .tuple1 j t h
          | [], [], .nil => cases hl
          | _ :: _ :: _, _, _ => cases hl
        · have : tupleText ts = c!"(" ++ joinStr c!", " ts ++ c!")" := by
            have hlen := ha.length
            match ts with
            | [] => rfl
            | [_] => exact absurd hlen hl
            | _ :: _ :: _ => rfl
          rw [this]
          exact .tuple l ts ha hl
  | dict l =>
    simp only [reprCell, hc] at h
    split at h
    · rename_i hi
      cases h; exact .inr (.inr ⟨by simpa using hi, .inr ⟨⟨l, rfl⟩, rfl⟩⟩)
    · rename_i hi
      cases h1 : reprEntries w (reprCell w n (i :: o)) l with
      | error x => rw [h1] at h; cases h
      | ok us =>
        rw [h1] at h; cases h
        obtain ⟨ts, rfl, ha⟩ := entries_all h1
        refine .inl ⟨?_, .inr (by simpa using hi)⟩
        simp only [inProgress, hc]
        exact .dict l ts ha

/-- C79: more depth never changes a text. -/
theorem C79_depth (w : RWorld) (n m : Nat) (hle : n ≤ m) (o : List Nat) (i : Nat) (t : Str)
    (h : reprCell w n o i = .ok t) : reprCell w m o i = .ok t := mono_le hle h

/-- C79: an object is shown inside of others as it is shown alone, unless a tuple or dict it shows is in progress. -/
theorem C79_alone (w : RWorld) (n : Nat) (o : List Nat) (i : Nat) (ho : ∀ j ∈ o, ¬ ShownBy w i j) (t : Str) :
    reprCell w n o i = .ok t ↔ reprCell w n [] i = .ok t :=
  ⟨context n o [] i t fun j hj => ⟨fun h => absurd hj (ho j h), fun h => nomatch h⟩,
    context n [] o i t fun j hj => ⟨fun h => (nomatch h), fun h => absurd hj (ho j h)⟩⟩

/-- C79: for an object that shows finitely many objects, `repr` can be made, given enough depth, exactly if none of them
is a field with something that cannot be shown, and none shows itself through sequences and maps only. -/
theorem C79_possible (w : RWorld) (i : Nat) (S : List Nat) (hS : ∀ j, ShownBy w i j → j ∈ S) :
    (∃ n t, reprCell w n [] i = .ok t) ↔ ∀ j, ShownBy w i j → ¬ UnshowableField w j ∧ ¬ DirectChain w j j := by
  constructor
  · rintro ⟨n, h⟩ j hj
    exact ok_clear h hj
  · intro h
    obtain ⟨t, ht⟩ := enough hS h _ [] [] i .self (fun c hc => nomatch hc) (Nat.lt_succ_self _)
    exact ⟨_, t, ht⟩

/-- C79: how much depth is enough. -/
theorem C79_enough (w : RWorld) (i : Nat) (S : List Nat) (hS : ∀ j, ShownBy w i j → j ∈ S)
    (h : ∀ j, ShownBy w i j → ¬ UnshowableField w j ∧ ¬ DirectChain w j j) (n : Nat)
    (hn : S.length * (S.length + 3) < n) : ∃ t, reprCell w n [] i = .ok t := by
  refine enough hS h n [] [] i .self (fun c hc => nomatch hc) (Nat.lt_of_le_of_lt ?_ hn)
  have h1 := left_le S []
  have h2 := Nat.mul_le_mul_right (S.length + 2) h1
  have h3 : S.length * (S.length + 3) = S.length * (S.length + 2) + S.length := by
    rw [show S.length + 3 = (S.length + 2) + 1 from rfl, Nat.mul_succ]
  omega

/-- C79: `repr` raises nothing but RecursionError, and TypeError where a field has something that cannot be shown. -/
theorem C79_raises (w : RWorld) (n : Nat) (i : Nat) (e : PyErr) (h : reprCell w n [] i = .error e) :
    e = .recursionError ∨ (e = .typeError ∧ ∃ j, ShownBy w i j ∧ UnshowableField w j) :=
  error_cause n [] i e h

/-- C79: a field that shows itself through sequences and maps only raises RecursionError whatever the depth, unless
something cannot be shown. -/
theorem C79_endless (w : RWorld) (i j : Nat) (hj : ShownBy w i j) (hd : DirectChain w j j)
    (hu : ∀ k, ShownBy w i k → ¬ UnshowableField w k) (n : Nat) : reprCell w n [] i = .error .recursionError := by
  cases h : reprCell w n [] i with
  | ok t => exact absurd hd (ok_clear ⟨t, h⟩ hj).2
  | error e =>
    rcases error_cause n [] i e h with rfl | ⟨_, k, hk, hk'⟩
    · rfl
    · exact absurd hk' (hu k hk)

end Scheme
