import Verif.Spec.PassOn
import Verif.Model.FieldCsv
import Verif.Props.WireJson
import Verif.Props.FieldText

/-! C96: a document read in one format can be passed on in another. -/

namespace Scheme
open Json

/-! ### plain data -/

/-- Entries of a dict that is plain data. -/
def PlainEntries (F : PyFloat → Prop) (d : List (Val × Val)) : Prop :=
  (d.map (·.1)).Nodup ∧ ∀ e ∈ d, (∃ k, e.1 = .str k) ∧ PlainData F e.2

theorem PlainEntries.data {F : PyFloat → Prop} {d : List (Val × Val)} (h : PlainEntries F d) : PlainData F (.dict d) := by
  obtain ⟨l, rfl⟩ : ∃ l : List (Str × Val), d = l.map fun e => (.str e.1, e.2) := by
    obtain ⟨-, h⟩ := h
    induction d with
    | nil => exact ⟨[], rfl⟩
    | cons e r ih =>
      obtain ⟨l, rfl⟩ := ih fun x hx => h x (List.mem_cons_of_mem _ hx)
      obtain ⟨⟨k, hk⟩, -⟩ := h e List.mem_cons_self
      obtain ⟨a, b⟩ := e
      exact ⟨(k, b) :: l, by simp only at hk; simp [hk]⟩
  refine .dict ?_ fun e he => (h.2 _ (List.mem_map_of_mem he)).2
  have := h.1
  rw [List.map_map] at this
  exact List.pairwise_map.2 ((List.pairwise_map.1 this).imp fun h e => h (congrArg Val.str e))

theorem PlainEntries.nil {F : PyFloat → Prop} : PlainEntries F [] := ⟨List.nodup_nil, fun _ h => nomatch h⟩

theorem PlainEntries.set {F : PyFloat → Prop} {d : List (Val × Val)} (h : PlainEntries F d) {k : Str} {v : Val} (hv : PlainData F v) :
    PlainEntries F (dictSet d (.str k) v) := by
  have hmem : ∀ e ∈ dictSet d (.str k) v, (∃ k, e.1 = .str k) ∧ PlainData F e.2 := by
    intro e he
    rcases mem_dictSet he with he | ⟨h2, h1 | ⟨_, x, hx⟩⟩
    · exact h.2 e he
    · exact ⟨⟨k, h1⟩, by rw [h2]; exact hv⟩
    · exact ⟨(h.2 _ hx).1, by rw [h2]; exact hv⟩
  refine ⟨?_, hmem⟩
  rcases dictSet_keys d (.str k) v with ⟨-, e⟩ | ⟨h1, e⟩
  · rw [e]; exact h.1
  · rw [e, List.map_append, List.nodup_append]
    refine ⟨h.1, by simp, ?_⟩
    intro a ha b hb hab
    simp only [List.map_cons, List.map_nil, List.mem_singleton] at hb
    obtain ⟨x, hx, rfl⟩ := List.mem_map.1 ha
    have := h1 x hx
    rw [hab, hb] at this
    simp [pyEq] at this

theorem plain_dictOf {F : PyFloat → Prop} {l : List (Val × Val)} (h : ∀ e ∈ l, (∃ k, e.1 = .str k) ∧ PlainData F e.2) :
    PlainData F (.dict (dictOf l)) := by
  have key : ∀ (l d : List (Val × Val)), PlainEntries F d → (∀ e ∈ l, (∃ k, e.1 = .str k) ∧ PlainData F e.2) →
      PlainEntries F (l.foldl (fun d e => dictSet d e.1 e.2) d) := by
    intro l
    induction l with
    | nil => intro d hd _; exact hd
    | cons e r ih =>
      intro d hd h
      obtain ⟨⟨k, hk⟩, hv⟩ := h e List.mem_cons_self
      rw [List.foldl_cons]
      refine ih _ ?_ fun x hx => h x (List.mem_cons_of_mem _ hx)
      rw [hk]
      exact hd.set hv
  exact (key l [] .nil h).data

/-- JSON carries plain data unchanged. -/
theorem plain_carries {env : Env} (hfl : FloatTexts env) {u : Val} (h : PlainData (OfText env) u) : Carries env u u := by
  induction h with
  | none => exact .none
  | bool b => exact .bool b
  | int i => exact .int i
  | @float x h =>
    rcases h with ⟨s, hs⟩ | h
    · exact .float (hfl s _ hs)
    · refine .float ?_
      cases x with
      | fin q => exact absurd rfl (h q)
      | inf b => trivial
      | nan => trivial
  | str s => exact .str s
  | list _ ih => exact carries_list ih
  | @dict l hn _ ih =>
    have := Carries.dict (env := env) (es := l.map fun e => ((Val.str e.1, e.1), e.2, e.2))
      (by rw [List.map_map]; exact hn)
      (by intro e he; obtain ⟨x, _, rfl⟩ := List.mem_map.1 he; exact .str _)
      (by intro e he; obtain ⟨x, hx, rfl⟩ := List.mem_map.1 he; exact ih x hx)
    simpa [List.map_map, Function.comp_def] using this

/-! ### the readers -/

theorem stSimple_plain {env : Env} {numbers : Bool} {s : Str} : PlainData (OfText env) (stSimple env numbers s) := by
  unfold stSimple
  dsimp only
  split
  · exact .bool _
  split
  · exact .bool _
  split
  · exact .none
  split
  · exact .str _
  split
  · next x h =>
    split at h
    · exact .float (.inl ⟨_, h⟩)
    · cases h
  split
  · exact .int _
  · exact .str _

theorem lookup_mem' {s : Str} {l : List (Str × Val)} {v : Val} (h : l.lookup s = some v) : ∃ k, (k, v) ∈ l := by
  induction l with
  | nil => cases h
  | cons e r ih =>
    obtain ⟨k, x⟩ := e
    rw [List.lookup_cons] at h
    split at h
    · cases h; exact ⟨k, List.mem_cons_self⟩
    · obtain ⟨k, hk⟩ := ih h; exact ⟨k, List.mem_cons_of_mem _ hk⟩

theorem stValue_plain {env : Env} {numbers : Bool} {structs : List (Str × Val)} (h : ∀ e ∈ structs, PlainData (OfText env) e.2) {s : Str} :
    PlainData (OfText env) (stValue env numbers structs s) := by
  unfold stValue
  split
  · next v hv => obtain ⟨k, hk⟩ := lookup_mem' hv; exact h _ hk
  · exact stSimple_plain

theorem stPairs_plain {env : Env} {numbers : Bool} {structs : List (Str × Val)} (h : ∀ e ∈ structs, PlainData (OfText env) e.2)
    {l : List Str} {d : List (Val × Val)} (hd : stPairs env numbers structs l = .ok d) :
    ∀ e ∈ d, (∃ k, e.1 = .str k) ∧ PlainData (OfText env) e.2 := by
  induction l generalizing d with
  | nil => cases hd; exact fun _ h => nomatch h
  | cons p r ih =>
    unfold stPairs at hd
    split at hd
    · cases hd
    · next k s _ =>
      cases hr : stPairs env numbers structs r with
      | error e => rw [hr] at hd; cases hd
      | ok d' =>
        rw [hr] at hd
        cases hd
        intro e he
        rcases List.mem_cons.1 he with rfl | he
        · exact ⟨⟨k, rfl⟩, stValue_plain h⟩
        · exact ih hr e he

theorem stStructure_plain {env : Env} {numbers : Bool} {structs : List (Str × Val)} (h : ∀ e ∈ structs, PlainData (OfText env) e.2)
    {brace : Bool} {inner : Str} {v : Val} (hv : stStructure env numbers structs brace inner = .ok v) : PlainData (OfText env) v := by
  unfold stStructure at hv
  split at hv
  · split at hv
    · cases hv; exact PlainEntries.nil.data
    · cases hp : stPairs env numbers structs (splitOn ',' inner) with
      | error e => rw [hp] at hv; cases hv
      | ok d => rw [hp] at hv; cases hv; exact plain_dictOf (stPairs_plain h hp)
  · split at hv
    · cases hv; exact .list fun _ h => nomatch h
    · cases hv
      refine .list fun x hx => ?_
      obtain ⟨s, _, rfl⟩ := List.mem_map.1 hx
      exact stValue_plain h

theorem stPass_plain {env : Env} {numbers : Bool} {text : Str} : ∀ {k : Nat} {structs s : List (Str × Val)} {t : Str} {n : Nat},
    (∀ e ∈ structs, PlainData (OfText env) e.2) → stPass env numbers k structs text = .ok (t, s, n) →
    ∀ e ∈ s, PlainData (OfText env) e.2 := by
  induction text with
  | nil =>
    intro k structs s t n h hp
    unfold stPass at hp
    cases k <;> (cases hp; exact h)
  | cons c r ih =>
    intro k structs s t n h hp
    cases k with
    | succ k => exact ih h (by unfold stPass at hp; exact hp)
    | zero =>
      unfold stPass at hp
      split at hp
      · next brace inner _ =>
        cases hv : stStructure env numbers structs brace inner with
        | error e => rw [hv] at hp; cases hp
        | ok v =>
          rw [hv] at hp
          dsimp only [bind, Except.bind] at hp
          cases hr : stPass env numbers (inner.length + 1) (structs ++ [(stToken structs.length, v)]) r with
          | error e => rw [hr] at hp; cases hp
          | ok x =>
            obtain ⟨t', s', n'⟩ := x
            rw [hr] at hp
            cases hp
            refine ih ?_ hr
            intro e he
            rcases List.mem_append.1 he with he | he
            · exact h e he
            · cases List.mem_singleton.1 he
              exact stStructure_plain h hv
      · cases hr : stPass env numbers 0 structs r with
        | error e => rw [hr] at hp; cases hp
        | ok x =>
          obtain ⟨t', s', n'⟩ := x
          rw [hr] at hp
          cases hp
          exact ih h hr

theorem stLoop_plain {env : Env} {numbers : Bool} {f : Nat} : ∀ {structs : List (Str × Val)} {text : Str} {v : Val},
    (∀ e ∈ structs, PlainData (OfText env) e.2) → stLoop env numbers f structs text = .ok v → PlainData (OfText env) v := by
  induction f with
  | zero => intro structs text v _ h; cases h
  | succ f ih =>
    intro structs text v hs h
    unfold stLoop at h
    cases hr : stPass env numbers 0 structs text with
    | error e => rw [hr] at h; cases h
    | ok x =>
      obtain ⟨t, s, n⟩ := x
      rw [hr] at h
      dsimp only [bind, Except.bind] at h
      have hs' := stPass_plain hs hr
      split at h
      · split at h
        · next v' hv => cases h; obtain ⟨k, hk⟩ := lookup_mem' hv; exact hs' _ hk
        · cases h
      · exact ih hs' h

theorem stUnserialize_plain {env : Env} {numbers : Bool} {u v : Val} (h : stUnserialize env numbers u = .ok v) :
    PlainData (OfText env) v := by
  unfold stUnserialize at h
  split at h
  · cases h
  · split at h
    · exact stLoop_plain (structs := []) (by simp) h
    · cases h; exact stSimple_plain
  · cases h

/-- C96: what is read from structured text is plain data. -/
theorem C96_structured_data (env : Env) (numbers : Bool) (f : Field) : GivesPlain env (stOps env numbers) f :=
  fun _ _ h => stUnserialize_plain h

theorem urlLoop_plain {env : Env} {l : List (Str × Str)} : ∀ {d d' : List (Val × Val)}, PlainEntries (OfText env) d →
    urlLoop env d l = .ok d' → PlainEntries (OfText env) d' := by
  induction l with
  | nil => intro d d' hd h; cases h; exact hd
  | cons p r ih =>
    intro d d' hd h
    obtain ⟨name, value⟩ := p
    unfold urlLoop at h
    cases hv : stUnserialize env false (.str value) with
    | error e => rw [hv] at h; cases h
    | ok v =>
      rw [hv] at h
      exact ih (hd.set (stUnserialize_plain hv)) h

/-- C96: what is read from a query string is plain data. -/
theorem C96_query_data (env : Env) (f : Field) : GivesPlain env (urlOps env) f := by
  intro t u h
  simp only [urlOps, urlUnserialize] at h
  cases hr : urlLoop env [] (parseQsl t) with
  | error e => rw [hr] at h; cases h
  | ok d => rw [hr] at h; cases h; exact (urlLoop_plain .nil hr).data

theorem csvConvert_plain {env : Env} {f : Field} {s : Str} {v : Val} (h : csvConvert env f s = .ok v) : PlainData (OfText env) v := by
  unfold csvConvert at h
  split at h
  · cases h; exact .bool _
  split at h
  · split at h
    · next x hx => cases h; exact .float (.inl ⟨_, hx⟩)
    · cases h
  split at h
  · split at h
    · cases h; exact .int _
    · cases h
  · cases h; exact .str _

theorem csvRecord_plain {env : Env} {cells : List (Str × Field)} : ∀ {d d' : List (Val × Val)} {row : List Str},
    PlainEntries (OfText env) d → csvRecord env d cells row = .ok d' → PlainEntries (OfText env) d' := by
  induction cells with
  | nil => intro d d' row hd h; cases h; exact hd
  | cons c r ih =>
    intro d d' row hd h
    obtain ⟨c, f⟩ := c
    cases row with
    | nil => cases h
    | cons s ss =>
      unfold csvRecord at h
      split at h
      · exact ih hd h
      · cases hv : csvConvert env f s with
        | error e => rw [hv] at h; cases h
        | ok v => rw [hv] at h; exact ih (hd.set (csvConvert_plain hv)) h

theorem csvRecords_plain {env : Env} {cells : List (Str × Field)} {rows : List (Except Exn (List Str))} : ∀ {l : List Val},
    csvRecords env cells rows = .ok l → ∀ x ∈ l, PlainData (OfText env) x := by
  induction rows with
  | nil => intro l h; cases h; exact fun _ h => nomatch h
  | cons o r ih =>
    intro l h
    cases o with
    | error e => cases h
    | ok row =>
      unfold csvRecords at h
      cases hd : csvRecord env [] cells row with
      | error e => rw [hd] at h; cases h
      | ok d =>
        rw [hd] at h
        dsimp only [bind, Except.bind] at h
        cases hl : csvRecords env cells r with
        | error e => rw [hl] at h; cases h
        | ok l' =>
          rw [hl] at h
          cases h
          intro x hx
          rcases List.mem_cons.1 hx with rfl | hx
          · exact (csvRecord_plain .nil hd).data
          · exact ih hl x hx

/-- C96: what is read from a CSV table is plain data. -/
theorem C96_csv_data (env : Env) (columns : ColumnsArg) (path : Option Str) (f : Field) : GivesPlain env (csvOps env columns path) f := by
  intro t u h
  simp only [csvOps] at h
  unfold csvUnserialize at h
  split at h
  · split at h
    · unfold csvTable at h
      split at h
      · cases h
      · cases h
      · next columns rows _ =>
        dsimp only [bind, Except.bind] at h
        split at h
        · cases h
        · next cells _ =>
          split at h
          · cases h
          · next l hl => cases h; exact .list (csvRecords_plain hl)
    · cases h
    · cases h
  · cases h

theorem xmlChild_plain {env : Env} {rec : XmlUns} {P : Field → Prop}
    (hr : ∀ f x v, P f → rec f x = .ok v → PlainData (OfText env) v) {f : Field} {x : Xml} {v : Val}
    (hf : ∀ g, resolve env f = some g → P g) (h : xmlChild env rec f x = .ok v) : PlainData (OfText env) v := by
  unfold xmlChild at h
  split at h
  · cases h
  · next g hg => exact hr g x v (hf g hg) h

theorem xmlEntries_plain {env : Env} {rec : XmlUns} {P : Field → Prop}
    (hr : ∀ f x v, P f → rec f x = .ok v → PlainData (OfText env) v) {f : Field} (hf : ∀ g, resolve env f = some g → P g)
    {kids : List Xml} : ∀ {l : List (Val × Val)}, xmlReadEntries env rec f kids = .ok l →
    ∀ e ∈ l, (∃ k, e.1 = .str k) ∧ PlainData (OfText env) e.2 := by
  induction kids with
  | nil => intro l h; cases h; exact fun _ h => nomatch h
  | cons x r ih =>
    intro l h
    unfold xmlReadEntries at h
    cases hv : xmlChild env rec f x with
    | error e => rw [hv] at h; cases h
    | ok v =>
      rw [hv] at h
      dsimp only [bind, Except.bind] at h
      cases hl : xmlReadEntries env rec f r with
      | error e => rw [hl] at h; cases h
      | ok l' =>
        rw [hl] at h
        cases h
        intro e he
        rcases List.mem_cons.1 he with rfl | he
        · exact ⟨⟨_, rfl⟩, xmlChild_plain hr hf hv⟩
        · exact ih hl e he

theorem xmlItems_plain {env : Env} {rec : XmlUns} {P : Field → Prop}
    (hr : ∀ f x v, P f → rec f x = .ok v → PlainData (OfText env) v) {f : Field} (hf : ∀ g, resolve env f = some g → P g)
    {kids : List Xml} : ∀ {l : List Val}, xmlReadItems env rec f kids = .ok l → ∀ e ∈ l, PlainData (OfText env) e := by
  induction kids with
  | nil => intro l h; cases h; exact fun _ h => nomatch h
  | cons x r ih =>
    intro l h
    unfold xmlReadItems at h
    cases hv : xmlChild env rec f x with
    | error e => rw [hv] at h; cases h
    | ok v =>
      rw [hv] at h
      dsimp only [bind, Except.bind] at h
      cases hl : xmlReadItems env rec f r with
      | error e => rw [hl] at h; cases h
      | ok l' =>
        rw [hl] at h
        cases h
        intro e he
        rcases List.mem_cons.1 he with rfl | he
        · exact xmlChild_plain hr hf hv
        · exact ih hl e he

theorem lookup_mem_field {s : Str} {l : List (Str × Field)} {v : Field} (h : l.lookup s = some v) : ∃ k, (k, v) ∈ l := by
  induction l with
  | nil => cases h
  | cons e r ih =>
    obtain ⟨k, x⟩ := e
    rw [List.lookup_cons] at h
    split at h
    · cases h; exact ⟨k, List.mem_cons_self⟩
    · obtain ⟨k, hk⟩ := ih h; exact ⟨k, List.mem_cons_of_mem _ hk⟩

theorem xmlMembers_plain {env : Env} {rec : XmlUns} {P : Field → Prop}
    (hr : ∀ f x v, P f → rec f x = .ok v → PlainData (OfText env) v) {defn : List (Str × Field)}
    (hf : ∀ e ∈ defn, ∀ g, resolve env e.2 = some g → P g)
    {kids : List Xml} : ∀ {l : List (Val × Val)}, xmlReadMembers env rec defn kids = .ok l →
    ∀ e ∈ l, (∃ k, e.1 = .str k) ∧ PlainData (OfText env) e.2 := by
  induction kids with
  | nil => intro l h; cases h; exact fun _ h => nomatch h
  | cons x r ih =>
    intro l h
    unfold xmlReadMembers at h
    split at h
    · cases h
    · next f hlk =>
      obtain ⟨k, hk⟩ := lookup_mem_field hlk
      cases hv : xmlChild env rec f x with
      | error e => rw [hv] at h; cases h
      | ok v =>
        rw [hv] at h
        dsimp only [bind, Except.bind] at h
        cases hl : xmlReadMembers env rec defn r with
        | error e => rw [hl] at h; cases h
        | ok l' =>
          rw [hl] at h
          cases h
          intro e he
          rcases List.mem_cons.1 he with rfl | he
          · exact ⟨⟨_, rfl⟩, xmlChild_plain hr (hf _ hk) hv⟩
          · exact ih hl e he

theorem xmlValue_plain {env : Env} (n : Nat) : ∀ {f : Field} {x : Xml} {v : Val}, Everywhere env NoTuple f → xmlValue env n f x = .ok v →
    PlainData (OfText env) v := by
  induction n with
  | zero => intro f x v _ h; cases h
  | succ n ih =>
    intro f x v hf h
    have hr : ∀ f x v, Everywhere env NoTuple f → xmlValue env n f x = .ok v → PlainData (OfText env) v := fun f x v hf h => ih hf h
    obtain ⟨tag, null, text, kids⟩ := x
    simp only [xmlValue, xmlElementStep] at h
    split at h
    · cases h; exact .none
    split at h
    · split at h
      · cases h; exact .bool _
      · cases h
    · split at h
      · split at h
        · next y hy => cases h; exact .float (.inl ⟨_, hy⟩)
        · cases h
      · cases h
    · split at h
      · split at h
        · cases h; exact .int _
        · cases h
      · cases h
    · cases h
      cases text with
      | none => exact .none
      | some t => exact .str t
    · next c k value r =>
      cases hl : xmlReadEntries env (xmlValue env n) value kids with
      | error e => rw [hl] at h; cases h
      | ok l => rw [hl] at h; cases h; exact plain_dictOf (xmlEntries_plain hr (fun g hg => hf.child (.value hg)) hl)
    · next c item mn mx u =>
      cases hl : xmlReadItems env (xmlValue env n) item kids with
      | error e => rw [hl] at h; cases h
      | ok l => rw [hl] at h; cases h; exact .list (xmlItems_plain hr (fun g hg => hf.child (.item hg)) hl)
    · next c defn s ko =>
      cases hl : xmlReadMembers env (xmlValue env n) defn kids with
      | error e => rw [hl] at h; cases h
      | ok l =>
        rw [hl] at h
        cases h
        exact plain_dictOf (xmlMembers_plain hr (fun e he g hg => hf.child (.member (n := e.1) (f := e.2) he hg)) hl)
    · split at h
      · cases h; exact PlainEntries.nil.data
      · cases h
    · exact (hf.here).elim
    · cases h
    · cases h

/-- C96: what is read from XML by a schema without Tuple fields is plain data. -/
theorem C96_xml_data (env : Env) (m : Nat) (preamble : Bool) (f : Field) (hf : Everywhere env NoTuple f) :
    GivesPlain env (xmlOps env m preamble) f := by
  intro t u h
  simp only [xmlOps, xmlUnserialize] at h
  split at h
  · exact xmlValue_plain m hf h
  · cases h

theorem plain_collected {F : PyFloat → Prop} {ps : List (Str × Val)} (h : ∀ p ∈ ps, PlainData F p.2) : PlainData F (collected ps) := by
  rw [← dictOf_collected]
  refine plain_dictOf fun e he => ?_
  obtain ⟨p, hp, rfl⟩ := List.mem_map.1 he
  exact ⟨⟨_, rfl⟩, h p hp⟩

mutual
theorem jText_plain {env : Env} {t : Str} {v : Val} (h : JText env t v) : PlainData (OfText env) v := by
  cases h with
  | null => exact .none
  | true => exact .bool _
  | false => exact .bool _
  | nan => exact .float (.inr fun _ h => nomatch h)
  | infinity => exact .float (.inr fun _ h => nomatch h)
  | minusInfinity => exact .float (.inr fun _ h => nomatch h)
  | natural h => exact .int _
  | negative h => exact .int _
  | real h1 h2 => exact .float (.inl ⟨_, h2⟩)
  | text h => exact .str _
  | emptyList => exact .list (by simp)
  | list _ hl => exact .list (jItems_plain hl)
  | emptyDict => exact PlainEntries.nil.data
  | dict _ hl => exact plain_collected (jPairs_plain hl)
termination_by 2 * t.length
decreasing_by all_goals (simp only [List.length_cons, List.length_append, List.length_nil]; omega)
theorem jItems_plain {env : Env} {t : Str} {l : List Val} (h : JItems env t l) : ∀ x ∈ l, PlainData (OfText env) x := by
  cases h with
  | one ht hw =>
    have := jText_plain ht
    simpa using this
  | more ht hw hw' hl =>
    have h1 := jText_plain ht
    have h2 := jItems_plain hl
    intro x hx
    rcases List.mem_cons.1 hx with rfl | hx
    · exact h1
    · exact h2 x hx
termination_by 2 * t.length + 1
decreasing_by all_goals (simp only [List.length_cons, List.length_append, List.length_nil]; omega)
theorem jPairs_plain {env : Env} {t : Str} {ps : List (Str × Val)} (h : JPairs env t ps) :
    ∀ p ∈ ps, PlainData (OfText env) p.2 := by
  cases h with
  | one hk hw hw' ht hw'' =>
    have := jText_plain ht
    simpa using this
  | more hk hw hw' ht hw'' hw3 hl =>
    have h1 := jText_plain ht
    have h2 := jPairs_plain hl
    intro p hp
    rcases List.mem_cons.1 hp with rfl | hp
    · exact h1
    · exact h2 p hp
termination_by 2 * t.length + 1
decreasing_by all_goals (simp only [List.length_cons, List.length_append, List.length_nil]; omega)
end

/-- C96: what is read from JSON is plain data. -/
theorem C96_json_data (env : Env) (f : Field) : GivesPlain env (jsonOps env) f := by
  intro t u h
  obtain ⟨_, _, _, _, _, _, ht⟩ := (C56_read env t u).1 h
  exact jText_plain ht

/-! ### passing on -/

/-- C96: whatever was read from a format that gives plain data can be written to JSON and is read back as the same value. -/
theorem C96_json (env : Env) (hz : ZoneLaw env) (hfl : FloatTexts env) (n : Nat) (f : Field) (ops : FormatOps) (ho : GivesPlain env ops f)
    (hs : Everywhere env (Settled env) f) (hn : Everywhere env (Sends env) f) (hj : Everywhere env (JsonRereads env) f)
    (text : Str) (v : Val) (a : List Str) (h : unserializeFrom env n f ops text a = .ok v) :
    ∃ t, (∀ a1, serializeTo env n f (jsonOps env) v a1 = .ok t) ∧ ∀ a2, unserializeFrom env n f (jsonOps env) t a2 = .ok v := by
  simp only [unserializeFrom] at h
  cases hr : ops.read text f with
  | error e => rw [hr] at h; cases h
  | ok u =>
    rw [hr, except_bind_ok] at h
    exact C57_data env hz hfl n f hs hn hj u v a (plain_carries hfl (ho text u hr)) h

/-- C96: documents of such formats are read as the same value if and only if the values are written as the same JSON text. -/
theorem C96_json_apart (env : Env) (hz : ZoneLaw env) (hfl : FloatTexts env) (n : Nat) (f : Field) (ops ops' : FormatOps)
    (ho : GivesPlain env ops f) (ho' : GivesPlain env ops' f)
    (hs : Everywhere env (Settled env) f) (hn : Everywhere env (Sends env) f) (hj : Everywhere env (JsonRereads env) f)
    (text text' : Str) (v v' : Val) (a a' b b' : List Str) (h : unserializeFrom env n f ops text a = .ok v)
    (h' : unserializeFrom env n f ops' text' a' = .ok v') :
    v = v' ↔ serializeTo env n f (jsonOps env) v b = serializeTo env n f (jsonOps env) v' b' := by
  obtain ⟨t, h1, h2⟩ := C96_json env hz hfl n f ops ho hs hn hj text v a h
  obtain ⟨t', h1', h2'⟩ := C96_json env hz hfl n f ops' ho' hs hn hj text' v' a' h'
  constructor
  · rintro rfl; exact (h1 b).trans (h1 b').symm
  · intro e
    rw [h1 b, h1' b'] at e
    cases e
    exact Except.ok.inj ((h2 []).symm.trans (h2' []))

theorem plain_arriving {env : Env} (hfl : FloatTexts env) {f : Field} {u : Val} (h : PlainData (OfText env) u) : ArrivingAt f u :=
  .inl (carries_Arriving (plain_carries hfl h))

/-- C96: whatever was read from a format that gives plain data can be written in any format that carries what is written, up to the
order of dict entries, and comes back the same up to that order. -/
theorem C96_carried (env : Env) (hz : ZoneLaw env) (hfl : FloatTexts env) (n : Nat) (f : Field) (ops ops' : FormatOps)
    (ho : GivesPlain env ops f) (hs : Everywhere env (Settled env) f) (hn : Everywhere env (Sends env) f)
    (hr : Everywhere env (Rereads env) f) (text : Str) (v : Val) (a : List Str) (h : unserializeFrom env n f ops text a = .ok v) :
    ∃ s, (∀ a1, process env n f v .outbound true a1 = .ok s) ∧
      ∀ t w, ops'.write s f = .ok t → ops'.read t f = .ok w → SameData s w →
        (∀ g x, Involves env .inbound f s g x → Orderly env .inbound true g x) →
        (∀ a1, serializeTo env n f ops' v a1 = .ok t) ∧ ∀ a2, ∃ v', unserializeFrom env n f ops' t a2 = .ok v' ∧ SameData v v' := by
  simp only [unserializeFrom] at h
  cases hu : ops.read text f with
  | error e => rw [hu] at h; cases h
  | ok u =>
    rw [hu, except_bind_ok] at h
    obtain ⟨s, h1, h2⟩ := C72_wire env hz n f hs hn hr u v a (plain_arriving hfl (ho text u hu)) h
    refine ⟨s, h1, fun t w hw ht hsd hod => ⟨fun a1 => by simp only [serializeTo, h1, except_bind_ok]; exact hw, fun a2 => ?_⟩⟩
    obtain ⟨v', h3, h4⟩ := (C68_reorder env n f s w .inbound true a2 hsd hod).1 v (h2 a2)
    exact ⟨v', by simp only [unserializeFrom, ht, except_bind_ok]; exact h3, h4⟩

/-- C96: whatever was read from such a format and has a YAML text that YAML carries comes back from YAML, if the reader of YAML reads
the documents it should. -/
theorem C96_yaml [Yaml.Floats] (env : Env) (hz : ZoneLaw env) (hfl : FloatTexts env) (wrap : Str → Str → List Str)
    (load : Str → Except Exn Val) (hl : ∀ m t w, Yaml.read m t = some w → load t = .ok w) (n : Nat) (f : Field) (ops : FormatOps)
    (ho : GivesPlain env ops f) (hs : Everywhere env (Settled env) f) (hn : Everywhere env (Sends env) f)
    (hr : Everywhere env (Rereads env) f) (text : Str) (v : Val) (a : List Str) (h : unserializeFrom env n f ops text a = .ok v) :
    ∃ s, (∀ a1, process env n f v .outbound true a1 = .ok s) ∧
      (Yaml.Carries env 0 s → (∀ g x, Involves env .inbound f s g x → Orderly env .inbound true g x) →
        ∃ t, (∀ a1, serializeTo env n f (yamlOps env wrap load) v a1 = .ok t) ∧
          ∀ a2, ∃ v', unserializeFrom env n f (yamlOps env wrap load) t a2 = .ok v' ∧ SameData v v') := by
  obtain ⟨s, h1, h2⟩ := C96_carried env hz hfl n f ops (yamlOps env wrap load) ho hs hn hr text v a h
  refine ⟨s, h1, fun hy hod => ?_⟩
  obtain ⟨t, w, h3, h4, h5⟩ := C44_round_trip (wrap := wrap) hy
  exact ⟨t, h2 t w h3 (hl _ _ _ (h5 (s.depth + 1) (Nat.lt_succ_self _))) h4 hod⟩

/-- C96: the same for XML. -/
theorem C96_xml (env : Env) (hz : ZoneLaw env) (hfl : FloatTexts env) (m : Nat) (preamble : Bool) (n : Nat) (f : Field) (ops : FormatOps)
    (ho : GivesPlain env ops f) (hs : Everywhere env (Settled env) f) (hn : Everywhere env (Sends env) f)
    (hr : Everywhere env (Rereads env) f) (text : Str) (v : Val) (a : List Str) (h : unserializeFrom env n f ops text a = .ok v)
    (hroot : XmlName (tagName c!"root" f)) :
    ∃ s, (∀ a1, process env n f v .outbound true a1 = .ok s) ∧
      (XmlValue env f s → s.depth < m → (∀ g x, Involves env .inbound f s g x → Orderly env .inbound true g x) →
        ∃ t, (∀ a1, serializeTo env n f (xmlOps env m preamble) v a1 = .ok t) ∧
          ∀ a2, ∃ v', unserializeFrom env n f (xmlOps env m preamble) t a2 = .ok v' ∧ SameData v v') := by
  obtain ⟨s, h1, h2⟩ := C96_carried env hz hfl n f ops (xmlOps env m preamble) ho hs hn hr text v a h
  refine ⟨s, h1, fun hx hm hod => ?_⟩
  obtain ⟨t, w, h3, h4, h5⟩ := C43_roundtrip hx hroot hm preamble
  exact ⟨t, h2 t w h3 h4 h5 hod⟩

/-! ### cases -/

/-- Whatever the ledger reads of structured text can be passed on as JSON. -/
example (n : Nat) (text : Str) (v : Val) (h : unserializeFrom Ex.env n Ex.ledger (stOps Ex.env false) text [] = .ok v) :
    ∃ t, (∀ a1, serializeTo Ex.env n Ex.ledger (jsonOps Ex.env) v a1 = .ok t) ∧
      ∀ a2, unserializeFrom Ex.env n Ex.ledger (jsonOps Ex.env) t a2 = .ok v :=
  C96_json Ex.env (fun d w d' h => by cases h; rfl) (fun _ _ h => nomatch h) n Ex.ledger _ (C96_structured_data _ _ _) Ex.ledger_settled
    Ex.ledger_sends Ex.ledger_json text v [] h

example : unserializeFrom Ex.env 4 Ex.ledger (stOps Ex.env true) c!"[{on:1987-6-5,mark:7}]" [] =
    .ok (.list [.dict [(.str c!"on", .date ⟨1987, 6, 5⟩),
        (.str c!"at", .datetime ⟨⟨2020, 1, 1⟩, ⟨0, 0, 0, 0⟩, some .utc⟩), (.str c!"mark", .int 7)]]) := rfl

theorem Ex.two_everywhere {P : Field → Prop} (h1 : P Ex.two) (h2 : P Ex.int) : Everywhere Ex.env P Ex.two := by
  refine .of_closed (fun g => g = Ex.two ∨ g = Ex.int) (.inl rfl) (by rintro g (rfl | rfl); exacts [h1, h2]) ?_
  rintro g h (rfl | rfl) hc
  · cases hc with
    | member hm hg =>
      simp only [List.mem_cons, Prod.mk.injEq, List.not_mem_nil, or_false] at hm
      rcases hm with ⟨rfl, rfl⟩ | ⟨rfl, rfl⟩ <;> (cases hg; exact .inr rfl)
  · cases hc

theorem Ex.two_settled : Everywhere Ex.env (Settled Ex.env) Ex.two :=
  Ex.two_everywhere
    ⟨fun c hc => by cases hc; exact ⟨rfl, fun h => (by cases h)⟩,
      (by decide : (visited [(c!"b", Field.undef 0), (c!"a", .undef 0)] []).Nodup)⟩
    ⟨fun c hc => by cases hc; exact ⟨rfl, fun h => (by cases h)⟩, trivial⟩

theorem Ex.two_sends : Everywhere Ex.env (Sends Ex.env) Ex.two :=
  Ex.two_everywhere ⟨rfl, (by decide : (visited [(c!"b", Field.undef 0), (c!"a", .undef 0)] []).Nodup)⟩ trivial

theorem Ex.two_rereads : Everywhere Ex.env (Rereads Ex.env) Ex.two :=
  Ex.two_everywhere ⟨fun c hc => by cases hc; exact .inl Ex.arriving_none, trivial⟩ ⟨fun c hc => by cases hc; exact .inl Ex.arriving_none, trivial⟩

/-- Two numbers come as a query string and are passed on as YAML and as XML. -/
example [Yaml.Floats] (wrap : Str → Str → List Str) (load : Str → Except Exn Val) (hl : ∀ m t w, Yaml.read m t = some w → load t = .ok w) :
    (∃ t, (∀ a1, serializeTo Ex.env 2 Ex.two (yamlOps Ex.env wrap load) Ex.twoValue a1 = .ok t) ∧
      ∀ a2, ∃ v', unserializeFrom Ex.env 2 Ex.two (yamlOps Ex.env wrap load) t a2 = .ok v' ∧ SameData Ex.twoValue v') ∧
    ∃ t, (∀ a1, serializeTo Ex.env 2 Ex.two (xmlOps Ex.env 3 true) Ex.twoValue a1 = .ok t) ∧
      ∀ a2, ∃ v', unserializeFrom Ex.env 2 Ex.two (xmlOps Ex.env 3 true) t a2 = .ok v' ∧ SameData Ex.twoValue v' := by
  have hz : ZoneLaw Ex.env := by intro d w d' h; cases h; rfl
  have hfl : FloatTexts Ex.env := fun _ _ h => nomatch h
  have hread : unserializeFrom Ex.env 2 Ex.two (urlOps Ex.env) c!"b=1&a=2" [] = .ok Ex.twoValue := rfl
  constructor
  · obtain ⟨s, h1, h2⟩ := C96_yaml Ex.env hz hfl wrap load hl 2 Ex.two (urlOps Ex.env) (C96_query_data _ _) Ex.two_settled Ex.two_sends
      Ex.two_rereads _ Ex.twoValue [] hread
    obtain rfl : s = Ex.twoValue := Except.ok.inj ((h1 []).symm.trans (rfl : _ = Except.ok Ex.twoValue))
    exact h2 Ex.two_yaml (Ex.two_orderly fun d h => by cases h; simp)
  · obtain ⟨s, h1, h2⟩ := C96_xml Ex.env hz hfl 3 true 2 Ex.two (urlOps Ex.env) (C96_query_data _ _) Ex.two_settled Ex.two_sends
      Ex.two_rereads _ Ex.twoValue [] hread (isXmlName_iff.1 (by decide))
    obtain rfl : s = Ex.twoValue := Except.ok.inj ((h1 []).symm.trans (rfl : _ = Except.ok Ex.twoValue))
    exact h2 Ex.two_xml (by decide) (Ex.two_orderly fun d h => by cases h; simp)

/-- Tuple fields get tuples from XML, which are no plain data. -/
example : (xmlOps Ex.env 2 false).read c!"<root><integer>1</integer></root>" (.tuple {} [Ex.int]) = .ok (.tuple [.int 1]) := rfl

end Scheme
