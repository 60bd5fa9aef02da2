import Verif.Spec.Screen
import Verif.Props.Extract
import Verif.Props.Filter

/-! C80: extraction with screening parameters. -/

namespace Scheme

namespace SX

/-- The loops of all containers, on the pieces they ask for. -/
def takeAll (env : Env) (rec : Ext) : List (Val × Field × Val) → Except Exn (List (Val × Val))
  | [] => .ok []
  | (k, f, x) :: r => do
    let w ← notExcluded (extractChild env rec f x)
    let r' ← takeAll env rec r
    return match w with
      | some w => (k, w) :: r'
      | none => r'

theorem items_eq (env : Env) (rec : Ext) (item : Field) (l : List Val) :
    extractItems env rec item l = (takeAll env rec (l.map fun x => (.none, item, x))).map (·.map (·.2)) := by
  induction l with
  | nil => rfl
  | cons x r ih =>
    simp only [extractItems, takeAll, List.map_cons, ih]
    cases notExcluded (extractChild env rec item x) with
    | error => rfl
    | ok w =>
      cases takeAll env rec (r.map fun x => (Val.none, item, x)) with
      | error => rfl
      | ok out => cases w <;> rfl

theorem entries_eq (env : Env) (rec : Ext) (value : Field) (d : List (Val × Val)) :
    extractEntries env rec value d = takeAll env rec (d.map fun e => (e.1, value, e.2)) := by
  induction d with
  | nil => rfl
  | cons x r ih =>
    obtain ⟨k, v⟩ := x
    simp only [extractEntries, takeAll, List.map_cons, ih]
    cases notExcluded (extractChild env rec value v) with
    | error => rfl
    | ok w =>
      cases takeAll env rec (r.map fun e => (e.1, value, e.2)) with
      | error => rfl
      | ok out => cases w <;> rfl

theorem members_eq (env : Env) (o : Outer) (rec : Ext) (d : List (Val × Val)) (defn : List (Str × Field)) :
    extractMembers env o rec (.dict d) defn = takeAll env rec (askedOf d defn) := by
  induction defn with
  | nil => rfl
  | cons e r ih =>
    obtain ⟨name, f⟩ := e
    simp only [extractMembers, memberValue_dict, dictGet_str_eq_given, ih, except_bind_ok]
    have step : ∀ x, (do
        let w ← notExcluded (extractChild env rec f x)
        let r' ← takeAll env rec (askedOf d r)
        return match w with
          | some w => (Val.str name, w) :: r'
          | none => r' : Except Exn (List (Val × Val))) = takeAll env rec ((Val.str name, f, x) :: askedOf d r) := by
      intro x
      rfl
    have hask : askedOf d ((name, f) :: r) =
        (((given d name).filter fun x => !x.isNone).map fun x => (Val.str name, f, x)).toList ++ askedOf d r := by
      unfold askedOf
      rw [List.filterMap_cons]
      cases h : ((given d name).filter fun x => !x.isNone).map fun x => (Val.str name, f, x) <;> simp
    rw [hask]
    cases hg : given d name with
    | none => simp
    | some x => cases x <;> first | rfl | exact step _

theorem slots_ok {env : Env} {rec : Ext} {fs : List Field} {l w : List Val} :
    extractSlots env rec fs l = .ok w ↔
      fs.length ≤ l.length ∧ ∃ out, takeAll env rec ((fs.zip l).map fun p => (.none, p.1, p.2)) = .ok out ∧ w = out.map (·.2) := by
  induction fs generalizing l w with
  | nil => simp [extractSlots, takeAll, eq_comm]
  | cons f fs ih =>
    cases l with
    | nil => simp [extractSlots]
    | cons x r =>
      simp only [extractSlots, List.zip_cons_cons, List.map_cons, takeAll, except_bind_eq_ok, except_pure, List.length_cons,
        Nat.add_le_add_iff_right, Except.ok.injEq]
      constructor
      · rintro ⟨y, hy, r', hr', rfl⟩
        obtain ⟨h1, out, h2, rfl⟩ := ih.1 hr'
        refine ⟨h1, _, ⟨y, hy, out, h2, rfl⟩, ?_⟩
        cases y <;> rfl
      · rintro ⟨h1, out, ⟨y, hy, r', hr', rfl⟩, rfl⟩
        refine ⟨y, hy, _, ih.2 ⟨h1, r', hr', rfl⟩, ?_⟩
        cases y <;> rfl

theorem excluded_iff {o : Outer} {f : Field} {params : Params} : excluded o f params = false ↔ Wanted o params f := by
  unfold excluded Wanted
  rw [← C33_screen]
  cases params with
  | nil => simp [screen]
  | cons a r => simp

/-- What a call on a child gives, as far as its container is concerned. -/
structure Agrees (env : Env) (S : Field → Prop) (b : Bool) (rec : Ext) (g : Field) (x : Val) : Prop where
  ok : ∀ w, rec g x = .ok w ↔ Screened env S b g x w
  excl : rec g x = .error .excluded ↔ (∀ s, g ≠ .undef s) ∧ ¬ S g

theorem takeAll_iff {env : Env} {S : Field → Prop} {b : Bool} {rec : Ext} {l : List (Val × Field × Val)} {out : List (Val × Val)}
    (h : ∀ p ∈ l, ∀ g, resolve env p.2.1 = some g → Agrees env S b rec g p.2.2) :
    takeAll env rec l = .ok out ↔ Pieces env S b l out := by
  induction l generalizing out with
  | nil =>
    constructor
    · intro h; cases h; exact .nil
    · intro h; cases h; rfl
  | cons p r ih =>
    obtain ⟨k, f, x⟩ := p
    have ih := fun out => @ih out fun p hp => h p (List.mem_cons_of_mem _ hp)
    have hh := h _ (List.mem_cons_self ..)
    simp only [takeAll, except_bind_eq_ok, except_pure, Except.ok.injEq]
    constructor
    · rintro ⟨y, hy, r', hr', rfl⟩
      have ih := (ih _).1 hr'
      cases y with
      | some w =>
        obtain ⟨g, hg, hw⟩ := extractChild_ok.1 (notExcluded_eq_some.1 hy)
        exact .keep hg (((hh g hg).ok w).1 hw) ih
      | none =>
        have hy := notExcluded_eq_none.1 hy
        cases hg : resolve env f with
        | none => simp [extractChild, hg] at hy
        | some g =>
          simp only [extractChild, hg] at hy
          obtain ⟨h1, h2⟩ := (hh g hg).excl.1 hy
          exact .drop hg h1 h2 ih
    · intro hp
      cases hp with
      | keep hg hs hr =>
        exact ⟨some _, notExcluded_eq_some.2 (extractChild_ok.2 ⟨_, hg, ((hh _ hg).ok _).2 hs⟩), _, (ih _).2 hr, rfl⟩
      | drop hg h1 h2 hr =>
        refine ⟨none, notExcluded_eq_none.2 ?_, _, (ih _).2 hr, rfl⟩
        simp only [extractChild, hg]
        exact (hh _ hg).excl.2 ⟨h1, h2⟩

theorem notExcluded_ne {x : Except Exn Val} : notExcluded x ≠ .error .excluded := by
  rcases x with e | v
  · cases e <;> simp [notExcluded]
  · simp [notExcluded]

theorem bind_ne {α β : Type} {x : Except Exn α} {k : α → Except Exn β} (h1 : x ≠ .error .excluded)
    (h2 : ∀ a, k a ≠ .error .excluded) : (x >>= k) ≠ .error .excluded := by
  cases x with
  | error e => intro h; apply h1; simpa using h
  | ok a => exact h2 a

theorem map_ne {α β : Type} {x : Except Exn α} {k : α → β} (h1 : x ≠ .error .excluded) : x.map k ≠ .error .excluded := by
  cases x with
  | error e => intro h; apply h1; simpa [Except.map] using h
  | ok a => simp [Except.map]

theorem takeAll_ne {env : Env} {rec : Ext} (l : List (Val × Field × Val)) : takeAll env rec l ≠ .error .excluded := by
  induction l with
  | nil => simp [takeAll]
  | cons p r ih => exact bind_ne notExcluded_ne fun y => bind_ne ih fun r' => by cases y <;> simp

theorem slots_ne {env : Env} {rec : Ext} (fs : List Field) (l : List Val) : extractSlots env rec fs l ≠ .error .excluded := by
  induction fs generalizing l with
  | nil => simp [extractSlots]
  | cons p r ih =>
    cases l with
    | nil => simp [extractSlots]
    | cons x t => exact bind_ne notExcluded_ne fun y => bind_ne (ih t) fun r' => by cases y <;> simp

theorem identities_ne {o : Outer} {d : List (Val × Val)} (vs : List (Val × List (Str × Field))) :
    extractIdentities o (.dict d) vs ≠ .error .excluded := by
  induction vs with
  | nil => simp [extractIdentities]
  | cons e r ih =>
    obtain ⟨i, defn⟩ := e
    simp only [extractIdentities, memberValue_dict, except_bind_ok]
    cases dictGet d i with
    | none => exact ih
    | some x => cases x <;> first | exact ih | simp

theorem variantAt_ne {vs : List (Val × List (Str × Field))} {id : Val} : variantAt vs id ≠ .error .excluded := by
  unfold variantAt
  split
  · split <;> simp
  · simp

theorem body_ne {env : Env} {o : Outer} {rec : Ext} {f : Field} {v : Val} (hu : NotUnion f) :
    extractBody env o true rec f v ≠ .error .excluded := by
  cases f with
  | leaf c k => simp [extractBody]
  | undef s => simp [extractBody]
  | union c fs => exact absurd rfl (hu c fs)
  | sequence c i a b u =>
    cases v <;> simp only [extractBody, extractSequence, items_eq] <;> first | exact map_ne (map_ne (takeAll_ne _)) | simp
  | map c k x r =>
    cases v <;> simp only [extractBody, extractMap, entries_eq] <;> first | exact map_ne (takeAll_ne _) | simp
  | tuple c fs =>
    cases v <;> simp only [extractBody, extractTuple] <;> first | exact map_ne (slots_ne _ _) | simp
  | «structure» c d s ko =>
    cases v <;> simp only [extractBody, extractPlain, members_eq] <;> first | exact map_ne (takeAll_ne _) | simp
  | poly c di vs s ko =>
    cases v with
    | dict d =>
      simp only [extractBody, extractPoly]
      cases getMember o (.dict d) (.str (di.name.getD [])) with
      | error e => simp
      | ok id =>
        dsimp only
        split
        · simp only [members_eq]
          exact bind_ne variantAt_ne fun defn => map_ne (takeAll_ne _)
        · exact map_ne (identities_ne _)
    | _ => simp [extractBody, extractPoly]

theorem extract_succ {env : Env} {o : Outer} {params : Params} {n : Nat} {f : Field} {v : Val} (hx : NoExtractor f)
    (hf : ∀ s, f ≠ .undef s) : extract env o true params (n + 1) f v =
      if excluded o f params then .error .excluded
      else if v.isNone then .ok .none
      else extractBody env o true (extract env o true params n) f v := by
  have h : extract env o true params (n + 1) f v =
      if excluded o f params then .error .excluded
      else if v.isNone then .ok .none
      else (applyExtractor o f v >>= fun w => extractBody env o true (extract env o true params n) f w) := by
    cases f with
    | undef s => exact absurd rfl (hf s)
    | _ => rfl
  rw [h, applyExtractor_none hx hf]
  rfl

theorem none_of_isNone {v : Val} (h : v.isNone = true) : v = .none := by cases v <;> simp_all [Val.isNone]

theorem isNone_of_ne {v : Val} (h : v ≠ .none) : v.isNone = false := by cases v <;> simp_all [Val.isNone]

theorem asked_mem {d : List (Val × Val)} {defn : List (Str × Field)} {p : Val × Field × Val} (h : p ∈ askedOf d defn) :
    ∃ name, (name, p.2.1) ∈ defn ∧ p.1 = .str name ∧ given d name = some p.2.2 ∧ p.2.2 ≠ .none := by
  obtain ⟨e, he, h⟩ := List.mem_filterMap.1 h
  obtain ⟨x, hx, rfl⟩ := Option.map_eq_some_iff.1 h
  obtain ⟨h1, h2⟩ := Option.filter_eq_some_iff.1 hx
  exact ⟨e.1, he, rfl, h1, by rintro rfl; simp [Val.isNone] at h2⟩

theorem screened_wanted {env : Env} {S : Field → Prop} {b : Bool} {f : Field} {v w : Val} (h : Screened env S b f v w) :
    S f ∧ ∀ s, f ≠ .undef s := by
  cases h <;> first | exact ⟨‹_›, ‹_›⟩ | exact ⟨‹_›, by simp⟩

/-- Both parts of C80 at once. -/
theorem agrees (env : Env) (o : Outer) (params : Params) (n : Nat) (f : Field) (v : Val) (hn : v.depth < n)
    (hx : Everywhere env NoExtractor f) (hu : Everywhere env NotUnion f) :
    Agrees env (Wanted o params) true (extract env o true params n) f v := by
  induction n generalizing f v with
  | zero => omega
  | succ n ih =>
    by_cases hf : ∀ s, f ≠ .undef s
    case neg =>
      simp only [not_forall, not_not] at hf
      obtain ⟨s, rfl⟩ := hf
      refine ⟨fun w => ?_, ?_⟩
      · simp only [extract, extractStep, reduceCtorEq, false_iff]
        intro h; exact (screened_wanted h).2 s rfl
      · simp [extract, extractStep]
    have he := @extract_succ env o params n f v hx.here hf
    have hchild : ∀ g, Child env f g → ∀ x, x.depth < v.depth → Agrees env (Wanted o params) true (extract env o true params n) g x :=
      fun g hg x hd => ih g x (by omega) (hx.child hg) (hu.child hg)
    have hitem : ∀ l, (v = .list l ∨ v = .tuple l) → ∀ x ∈ l, x.depth < v.depth := by
      intro l hl x hx
      have := depthL_mem hx
      rcases hl with rfl | rfl <;> simp only [Val.depth] <;> omega
    refine ⟨fun w => ?_, ?_⟩
    · by_cases hw : Wanted o params f
      case neg =>
        have : excluded o f params = true := by
          cases h : excluded o f params with
          | true => rfl
          | false => exact absurd (excluded_iff.1 h) hw
        rw [he, this]
        simp only [if_true, reduceCtorEq, false_iff]
        intro h; exact hw (screened_wanted h).1
      rw [he, excluded_iff.2 hw]
      simp only [Bool.false_eq_true, if_false]
      by_cases hv : v = .none
      · subst hv
        simp only [Val.isNone, if_true, Except.ok.injEq]
        constructor
        · rintro rfl; exact .null hf hw
        · intro h
          cases h with
          | null => rfl
          | leaf => rfl
          | sequence _ h => simp at h
          | tuple _ h => simp at h
      rw [isNone_of_ne hv]
      simp only [Bool.false_eq_true, if_false]
      cases f with
      | undef s => exact absurd rfl (hf s)
      | union c fs => exact absurd rfl (hu.here c fs)
      | leaf c k =>
        simp only [extractBody, Except.ok.injEq]
        constructor
        · rintro rfl; exact .leaf hw
        · intro h; cases h <;> rfl
      | sequence c item a b u =>
        have key : ∀ l, (v = .list l ∨ v = .tuple l) → (extractSequence env (extract env o true params n) item v = .ok w ↔
            ∃ out, Pieces env (Wanted o params) true (l.map fun x => (.none, item, x)) out ∧ w = .list (out.map (·.2))) := by
          intro l hl
          have : extractSequence env (extract env o true params n) item v =
              (extractItems env (extract env o true params n) item l).map .list := by
            rcases hl with rfl | rfl <;> rfl
          rw [this, items_eq]
          simp only [except_map_eq_ok]
          constructor
          · rintro ⟨_, ⟨out, h, rfl⟩, rfl⟩
            refine ⟨out, (takeAll_iff ?_).1 h, rfl⟩
            intro p hp g hg
            obtain ⟨x, hx, rfl⟩ := List.mem_map.1 hp
            exact hchild g (.item hg) x (hitem l hl x hx)
          · rintro ⟨out, h, rfl⟩
            refine ⟨_, ⟨out, (takeAll_iff ?_).2 h, rfl⟩, rfl⟩
            intro p hp g hg
            obtain ⟨x, hx, rfl⟩ := List.mem_map.1 hp
            exact hchild g (.item hg) x (hitem l hl x hx)
        simp only [extractBody]
        constructor
        · intro h
          have : ∃ l, v = .list l ∨ v = .tuple l := by
            cases v <;> simp [extractSequence] at h <;> first | exact ⟨_, .inl rfl⟩ | exact ⟨_, .inr rfl⟩
          obtain ⟨l, hl⟩ := this
          obtain ⟨out, h1, rfl⟩ := (key l hl).1 h
          exact .sequence hw hl h1
        · intro h
          cases h with
          | null => exact absurd rfl hv
          | sequence _ hl hp => exact (key _ hl).2 ⟨_, hp, rfl⟩
      | map c k value r =>
        simp only [extractBody]
        cases v with
        | dict d =>
          have hag : ∀ p ∈ (d.map fun e => (e.1, value, e.2)), ∀ g, resolve env p.2.1 = some g →
              Agrees env (Wanted o params) true (extract env o true params n) g p.2.2 := by
            intro p hp g hg
            obtain ⟨e, he, rfl⟩ := List.mem_map.1 hp
            refine hchild g (.value hg) e.2 ?_
            have := (depthD_mem he).2
            simp only [Val.depth]; omega
          simp only [extractMap, entries_eq, except_map_eq_ok]
          constructor
          · rintro ⟨out, h, rfl⟩; exact .map hw ((takeAll_iff hag).1 h)
          · intro h
            cases h with
            | map _ hp => exact ⟨_, (takeAll_iff hag).2 hp, rfl⟩
        | none => exact absurd rfl hv
        | _ =>
          simp only [extractMap, reduceCtorEq, false_iff]
          intro h; cases h
      | tuple c fs =>
        have key : ∀ l, (v = .list l ∨ v = .tuple l) → (extractTuple env (extract env o true params n) fs v = .ok w ↔
            fs.length ≤ l.length ∧ ∃ out, Pieces env (Wanted o params) true ((fs.zip l).map fun p => (.none, p.1, p.2)) out ∧
              w = .tuple (out.map (·.2))) := by
          intro l hl
          have : extractTuple env (extract env o true params n) fs v =
              (extractSlots env (extract env o true params n) fs l).map .tuple := by
            rcases hl with rfl | rfl <;> rfl
          have hag : ∀ p ∈ ((fs.zip l).map fun p => (Val.none, p.1, p.2)), ∀ g, resolve env p.2.1 = some g →
              Agrees env (Wanted o params) true (extract env o true params n) g p.2.2 := by
            intro p hp g hg
            obtain ⟨e, he, rfl⟩ := List.mem_map.1 hp
            exact hchild g (.tuple (List.of_mem_zip he).1 hg) e.2 (hitem l hl _ (List.of_mem_zip he).2)
          rw [this]
          simp only [except_map_eq_ok, slots_ok]
          constructor
          · rintro ⟨_, ⟨h0, out, h, rfl⟩, rfl⟩
            exact ⟨h0, out, (takeAll_iff hag).1 h, rfl⟩
          · rintro ⟨h0, out, h, rfl⟩
            exact ⟨_, ⟨h0, out, (takeAll_iff hag).2 h, rfl⟩, rfl⟩
        simp only [extractBody]
        constructor
        · intro h
          have : ∃ l, v = .list l ∨ v = .tuple l := by
            cases v <;> simp [extractTuple] at h <;> first | exact ⟨_, .inl rfl⟩ | exact ⟨_, .inr rfl⟩
          obtain ⟨l, hl⟩ := this
          obtain ⟨h0, out, h1, rfl⟩ := (key l hl).1 h
          exact .tuple hw hl h0 h1
        · intro h
          cases h with
          | null => exact absurd rfl hv
          | tuple _ hl h0 hp => exact (key _ hl).2 ⟨h0, _, hp, rfl⟩
      | «structure» c defn s ko =>
        simp only [extractBody]
        cases v with
        | dict d =>
          have hag : ∀ p ∈ askedOf d defn, ∀ g, resolve env p.2.1 = some g →
              Agrees env (Wanted o params) true (extract env o true params n) g p.2.2 := by
            intro p hp g hg
            obtain ⟨name, hm, -, hgv, -⟩ := asked_mem hp
            exact hchild g (.member hm hg) _ (given_depth hgv)
          simp only [extractPlain, members_eq, except_map_eq_ok]
          constructor
          · rintro ⟨out, h, rfl⟩; exact .structure hw ((takeAll_iff hag).1 h)
          · intro h
            cases h with
            | «structure» _ hp => exact ⟨_, (takeAll_iff hag).2 hp, rfl⟩
        | none => exact absurd rfl hv
        | _ =>
          simp only [extractPlain, if_true, reduceCtorEq, false_iff]
          intro h; cases h
      | poly c di vs s ko =>
        simp only [extractBody]
        cases v with
        | dict d =>
          simp only [extractPoly, getMember, dictGet_str_eq_given]
          cases hid : given d (di.name.getD []) with
          | none =>
            simp only [reduceCtorEq, false_iff]
            intro h
            cases h with
            | variant _ h => rw [hid] at h; cases h
            | nothing _ _ h => rw [hid] at h; cases h
          | some id =>
            dsimp only
            by_cases ht : id.truthy = true
            · simp only [ht, if_true, except_bind_eq_ok, variantAt_ok, members_eq, except_map_eq_ok]
              constructor
              · rintro ⟨defn, ⟨h1, h2⟩, out, h3, rfl⟩
                refine .variant hw hid ht h1 (by rw [variantIn_eq]; exact h2) ((takeAll_iff ?_).1 h3)
                intro p hp g hg
                obtain ⟨name, hm, -, hgv, -⟩ := asked_mem hp
                obtain ⟨i, hi, -⟩ := variantGet_mem' h2
                exact hchild g (.variant hi hm hg) _ (given_depth hgv)
              · intro h
                cases h with
                | variant _ h1 h2 h3 h4 h5 =>
                  rw [hid] at h1; cases h1
                  rw [variantIn_eq] at h4
                  refine ⟨_, ⟨h3, h4⟩, _, (takeAll_iff ?_).2 h5, rfl⟩
                  intro p hp g hg
                  obtain ⟨name, hm, -, hgv, -⟩ := asked_mem hp
                  obtain ⟨i, hi, -⟩ := variantGet_mem' h4
                  exact hchild g (.variant hi hm hg) _ (given_depth hgv)
                | nothing _ _ h1 h2 => rw [hid] at h1; cases h1; rw [ht] at h2; cases h2
            · simp only [ht, if_false, except_map_eq_ok, extractIdentities_ok, Bool.false_eq_true]
              constructor
              · rintro ⟨_, h, rfl⟩
                exact .nothing rfl hw hid (by simpa using ht) h
              · intro h
                cases h with
                | variant _ h1 h2 => rw [hid] at h1; cases h1; exact absurd h2 ht
                | nothing _ _ h1 h2 h3 => exact ⟨(), h3, rfl⟩
        | none => exact absurd rfl hv
        | _ =>
          simp only [extractPoly, if_true, reduceCtorEq, false_iff]
          intro h; cases h
    · rw [he]
      constructor
      · intro h
        refine ⟨hf, fun hw => ?_⟩
        rw [excluded_iff.2 hw] at h
        simp only [Bool.false_eq_true, if_false] at h
        split at h
        · cases h
        · exact body_ne hu.here h
      · rintro ⟨-, hw⟩
        cases h : excluded o f params with
        | true => rfl
        | false => exact absurd (excluded_iff.1 h) hw

/-! ### Extracting from an extraction -/

theorem screened_ne_none {env : Env} {S : Field → Prop} {b : Bool} {f : Field} {v w : Val} (h : Screened env S b f v w) (hv : v ≠ .none) :
    w ≠ .none := by
  cases h <;> first | exact hv | simp

theorem given_skip {d : List (Val × Val)} {k : Str} {x : Val} {name : Str} (h : name ≠ k) :
    given ((.str k, x) :: d) name = given d name := by
  have : (k == name) = false := by simpa using fun e : k = name => h e.symm
  simp [given, List.find?_cons, this]

theorem given_here {d : List (Val × Val)} {k : Str} {x : Val} : given ((.str k, x) :: d) k = some x := by
  simp [given, List.find?_cons]

theorem asked_congr {d d' : List (Val × Val)} {defn : List (Str × Field)} (h : ∀ e ∈ defn, given d e.1 = given d' e.1) :
    askedOf d defn = askedOf d' defn := by
  unfold askedOf
  apply List.filterMap_congr
  intro e he
  rw [h e he]

/-- Asking a dict made of kept pieces gives these pieces. -/
theorem asked_kept {defn : List (Str × Field)} {l : List (Val × Field × Val)} (hnd : (defn.map (·.1)).Nodup)
    (hs : (l.map fun p => (p.1, p.2.1)).Sublist (defn.map fun e => (Val.str e.1, e.2))) (hn : ∀ p ∈ l, p.2.2 ≠ .none) :
    askedOf (l.map fun p => (p.1, p.2.2)) defn = l := by
  induction defn generalizing l with
  | nil =>
    have : l = [] := by simpa using hs
    subst this; rfl
  | cons e r ih =>
    obtain ⟨name, f⟩ := e
    simp only [List.map_cons, List.nodup_cons] at hnd
    have hcons : ∀ d, askedOf d ((name, f) :: r) =
        (((given d name).filter fun x => !x.isNone).map fun x => (Val.str name, f, x)).toList ++ askedOf d r := by
      intro d
      unfold askedOf
      rw [List.filterMap_cons]
      cases ((given d name).filter fun x => !x.isNone).map fun x => (Val.str name, f, x) <;> simp
    rw [hcons]
    generalize hl : (l.map fun p => (p.1, p.2.1)) = l1 at hs
    generalize hd : (((name, f) :: r).map fun e => (Val.str e.1, e.2)) = d1 at hs
    cases hs with
    | slnil => simp at hd
    | cons a h =>
      simp only [List.map_cons, List.cons.injEq] at hd
      obtain ⟨-, rfl⟩ := hd
      subst hl
      have hnone : given (l.map fun p => (p.1, p.2.2)) name = none := by
        refine Option.eq_none_iff_forall_ne_some.2 fun x hx => ?_
        rw [← dictGet_str_eq_given] at hx
        obtain ⟨k, hk, hkk⟩ := dictGet_mem hx
        rw [pyEq_str_left] at hkk; subst hkk
        obtain ⟨p, hp, he⟩ := List.mem_map.1 hk
        have := h.subset (List.mem_map.2 ⟨p, hp, rfl⟩)
        obtain ⟨e, he', hee⟩ := List.mem_map.1 this
        simp only [Prod.mk.injEq] at he hee
        rw [he.1] at hee
        cases hee.1
        exact hnd.1 (List.mem_map.2 ⟨e, he', rfl⟩)
      rw [hnone]
      simpa using ih hnd.2 h hn
    | cons_cons a h =>
      simp only [List.map_cons, List.cons.injEq] at hd
      obtain ⟨rfl, rfl⟩ := hd
      cases l with
      | nil => simp at hl
      | cons p t =>
        obtain ⟨k, f', x⟩ := p
        simp only [List.map_cons, List.cons.injEq, Prod.mk.injEq] at hl
        obtain ⟨⟨rfl, rfl⟩, rfl⟩ := hl
        have hx : x.isNone = false := isNone_of_ne (hn _ (List.mem_cons_self ..))
        simp only [List.map_cons, given_here, Option.filter_some, hx, Bool.not_false, if_true, Option.map_some, Option.toList_some,
          List.singleton_append, List.cons.injEq, true_and]
        rw [← ih hnd.2 h fun p hp => hn p (List.mem_cons_of_mem _ hp)]
        rw [ih hnd.2 h fun p hp => hn p (List.mem_cons_of_mem _ hp)]
        rw [asked_congr (d' := t.map fun p => (p.1, p.2.2))]
        · exact ih hnd.2 h fun p hp => hn p (List.mem_cons_of_mem _ hp)
        · intro e he
          exact given_skip fun hE => hnd.1 (List.mem_map.2 ⟨e, he, hE⟩)

/-- What is asked for has the names and fields of members, in their order. -/
theorem asked_sublist (d : List (Val × Val)) (defn : List (Str × Field)) :
    ((askedOf d defn).map fun p => (p.1, p.2.1)).Sublist (defn.map fun e => (Val.str e.1, e.2)) := by
  induction defn with
  | nil => exact List.Sublist.slnil
  | cons e r ih =>
    obtain ⟨name, f⟩ := e
    unfold askedOf at ih ⊢
    rw [List.filterMap_cons]
    cases h : ((given d name).filter fun x => !x.isNone).map fun x => (Val.str name, f, x) with
    | none => exact ih.cons _
    | some p =>
      obtain ⟨x, -, rfl⟩ := Option.map_eq_some_iff.1 h
      exact ih.cons_cons _

/-- The pieces that were kept, with what was taken from them. -/
structure KeptPieces (env : Env) (S S' : Field → Prop) (b b' : Bool) (l l' : List (Val × Field × Val)) : Prop where
  sub : (l'.map fun p => (p.1, p.2.1)).Sublist (l.map fun p => (p.1, p.2.1))
  all : (∀ p ∈ l, ∀ g, resolve env p.2.1 = some g → S' g) → (l'.map fun p => (p.1, p.2.1)) = l.map fun p => (p.1, p.2.1)
  kept : ∀ p ∈ l, ∀ g, resolve env p.2.1 = some g → S' g → ∃ w, (p.1, p.2.1, w) ∈ l' ∧ Screened env S' b' g p.2.2 w
  some : (∀ p ∈ l, p.2.2 ≠ .none) → ∀ p ∈ l', p.2.2 ≠ .none
  same : ∀ r, Pieces env S b l r ↔ Pieces env S b l' r

/-- Conditions for extracting again. -/
def Stable (env : Env) (S' : Field → Prop) (f : Field) : Prop := KeepsShape env S' f ∧ GoodNames f

theorem mem_of_lookup {defn : List (Str × Field)} {name : Str} {f : Field} (h : defn.lookup name = some f) : (name, f) ∈ defn := by
  induction defn with
  | nil => simp at h
  | cons e r ih =>
    obtain ⟨k, g⟩ := e
    simp only [List.lookup_cons] at h
    split at h
    · rename_i hk
      cases h
      rw [beq_iff_eq] at hk
      subst hk; exact List.mem_cons_self ..
    · exact List.mem_cons_of_mem _ (ih h)

theorem zip_kept {fs : List Field} {l : List Val} {l' : List (Val × Field × Val)} (hl : fs.length ≤ l.length)
    (h : (l'.map fun p => (p.1, p.2.1)) = ((fs.zip l).map fun p => (Val.none, p.1, p.2)).map fun p => (p.1, p.2.1)) :
    fs.length ≤ (l'.map (·.2.2)).length ∧ ((fs.zip (l'.map (·.2.2))).map fun p => (Val.none, p.1, p.2)) = l' := by
  induction fs generalizing l l' with
  | nil =>
    cases l' with
    | nil => simp
    | cons => simp at h
  | cons f fs ih =>
    cases l with
    | nil => simp at hl
    | cons x t =>
      cases l' with
      | nil => simp at h
      | cons p r =>
        obtain ⟨k, f', y⟩ := p
        simp only [List.zip_cons_cons, List.map_cons, List.cons.injEq, Prod.mk.injEq] at h
        obtain ⟨⟨rfl, rfl⟩, h⟩ := h
        obtain ⟨h1, h2⟩ := ih (by simpa using hl) h
        refine ⟨by simpa using h1, ?_⟩
        simp only [List.map_cons, List.zip_cons_cons, h2]

variable {env : Env} {S S' : Field → Prop} {b : Bool} (hS : ∀ f, S f → S' f)

set_option linter.unusedSectionVars false in
include hS in
mutual
theorem again_screened {f : Field} {v w : Val} : (h : Screened env S' false f v w) → Everywhere env (Stable env S') f →
    ∀ r, Screened env S b f v r ↔ Screened env S b f w r
  | .null _ _, _ => fun _ => Iff.rfl
  | .leaf _, _ => fun _ => Iff.rfl
  | @Screened.sequence _ _ _ c item mn mx u l v out hs hl hp, he => by
    intro r
    obtain ⟨l', rfl, hk⟩ := again_pieces hp fun p hp g hg => by
      obtain ⟨x, hx, rfl⟩ := List.mem_map.1 hp
      exact he.child (.item hg)
    have hl' : (((l'.map fun p => (p.1, p.2.2)).map (·.2)).map fun x => (Val.none, item, x)) = l' := by
      rw [List.map_map, List.map_map]
      conv => rhs; rw [← List.map_id l']
      apply List.map_congr_left
      intro p hp
      have := hk.sub.subset (List.mem_map.2 ⟨p, hp, rfl⟩)
      simp only [List.map_map, List.mem_map, Function.comp, Prod.mk.injEq] at this
      obtain ⟨x, -, h1, h2⟩ := this
      simp [h1, h2]
    constructor
    · intro h
      cases h with
      | null => simp at hl
      | sequence h1 h2 h3 =>
        rename_i l1 out1
        have : l1 = l := by rcases hl with rfl | rfl <;> rcases h2 with h | h <;> cases h <;> rfl
        subst this
        exact .sequence h1 (.inl rfl) (by rw [hl']; exact (hk.same _).1 h3)
    · intro h
      cases h with
      | sequence h1 h2 h3 =>
        rename_i l1 out1
        have : l1 = (l'.map fun p => (p.1, p.2.2)).map (·.2) := by rcases h2 with h | h <;> cases h; rfl
        subst this
        rw [hl'] at h3
        exact .sequence h1 hl ((hk.same _).2 h3)
  | @Screened.map _ _ _ c key value req d out hs hp, he => by
    intro r
    obtain ⟨l', rfl, hk⟩ := again_pieces hp fun p hp g hg => by
      obtain ⟨x, hx, rfl⟩ := List.mem_map.1 hp
      exact he.child (.value hg)
    have hl' : ((l'.map fun p => (p.1, p.2.2)).map fun e => (e.1, value, e.2)) = l' := by
      rw [List.map_map]
      conv => rhs; rw [← List.map_id l']
      apply List.map_congr_left
      intro p hp
      have := hk.sub.subset (List.mem_map.2 ⟨p, hp, rfl⟩)
      simp only [List.map_map, List.mem_map, Function.comp, Prod.mk.injEq] at this
      obtain ⟨x, -, h1, h2⟩ := this
      simp [h2]
    constructor
    · intro h
      cases h with
      | map h1 h3 => exact .map h1 (by rw [hl']; exact (hk.same _).1 h3)
    · intro h
      cases h with
      | map h1 h3 => rw [hl'] at h3; exact .map h1 ((hk.same _).2 h3)
  | @Screened.tuple _ _ _ c fs l v out hs hl hle hp, he => by
    intro r
    obtain ⟨l', rfl, hk⟩ := again_pieces hp fun p hp g hg => by
      obtain ⟨x, hx, rfl⟩ := List.mem_map.1 hp
      exact he.child (.tuple (List.of_mem_zip hx).1 hg)
    have hall := hk.all fun p hp g hg => by
      obtain ⟨x, hx, rfl⟩ := List.mem_map.1 hp
      exact he.here.1 hs _ (List.of_mem_zip hx).1 g hg
    obtain ⟨hlen, hz⟩ := zip_kept hle hall
    have hm : (l'.map fun p => (p.1, p.2.2)).map (·.2) = l'.map (·.2.2) := by rw [List.map_map]; rfl
    rw [hm]
    constructor
    · intro h
      cases h with
      | null => simp at hl
      | tuple h1 h2 h3 h4 =>
        rename_i l1 out1
        have : l1 = l := by rcases hl with rfl | rfl <;> rcases h2 with h | h <;> cases h <;> rfl
        subst this
        exact .tuple h1 (.inr rfl) hlen (by rw [hz]; exact (hk.same _).1 h4)
    · intro h
      cases h with
      | tuple h1 h2 h3 h4 =>
        rename_i l1 out1
        have : l1 = l'.map (·.2.2) := by rcases h2 with h | h <;> cases h; rfl
        subst this
        rw [hz] at h4
        exact .tuple h1 hl hle ((hk.same _).2 h4)
  | @Screened.structure _ _ _ c defn s ko d out hs hp, he => by
    intro r
    obtain ⟨l', rfl, hk⟩ := again_pieces hp fun p hp g hg => by
      obtain ⟨name, hm, -⟩ := asked_mem hp
      exact he.child (.member hm hg)
    have hl' : askedOf (l'.map fun p => (p.1, p.2.2)) defn = l' :=
      asked_kept he.here.2 (hk.sub.trans (asked_sublist d defn)) (hk.some fun p hp => by
        obtain ⟨_, _, _, _, h⟩ := asked_mem hp; exact h)
    constructor
    · intro h
      cases h with
      | «structure» h1 h3 => exact .structure h1 (by rw [hl']; exact (hk.same _).1 h3)
    · intro h
      cases h with
      | «structure» h1 h3 => rw [hl'] at h3; exact .structure h1 ((hk.same _).2 h3)
  | @Screened.variant _ _ _ c disc vs s ko d out id defn hs hid ht hh hvar hp, he => by
    intro r
    have hvm : ∃ i, (i, defn) ∈ vs := by
      rw [variantIn_eq] at hvar
      obtain ⟨i, hi, -⟩ := variantGet_mem' hvar
      exact ⟨i, hi⟩
    obtain ⟨i, hi⟩ := hvm
    obtain ⟨l', rfl, hk⟩ := again_pieces hp fun p hp g hg => by
      obtain ⟨name, hm, -⟩ := asked_mem hp
      exact he.child (.variant hi hm hg)
    obtain ⟨hnd, cd, kd, hlk⟩ := he.here.2 _ hi
    have hl' : askedOf (l'.map fun p => (p.1, p.2.2)) defn = l' :=
      asked_kept hnd (hk.sub.trans (asked_sublist d defn)) (hk.some fun p hp => by
        obtain ⟨_, _, _, _, h⟩ := asked_mem hp; exact h)
    have hidn : id ≠ .none := by rintro rfl; simp [Val.truthy] at ht
    have hask : (Val.str (disc.name.getD []), Field.leaf cd kd, id) ∈ askedOf d defn := by
      refine List.mem_filterMap.2 ⟨_, mem_of_lookup hlk, ?_⟩
      simp [hid, Option.filter_some, isNone_of_ne hidn]
    have hid' : given (l'.map fun p => (p.1, p.2.2)) (disc.name.getD []) = some id := by
      obtain ⟨w, hw, hsc⟩ := hk.kept _ hask (.leaf cd kd) rfl (he.here.1 hs _ hi _ hlk)
      have : w = id := by cases hsc <;> rfl
      subst this
      rw [← hl'] at hw
      obtain ⟨name, -, h1, h2, -⟩ := asked_mem hw
      cases h1
      exact h2
    constructor
    · intro h
      cases h with
      | variant h1 h2 h3 h4 h5 h6 =>
        rw [hid] at h2; cases h2
        rw [hvar] at h5; cases h5
        exact .variant h1 hid' h3 h4 hvar (by rw [hl']; exact (hk.same _).1 h6)
      | nothing _ _ h2 h3 => rw [hid] at h2; cases h2; rw [ht] at h3; cases h3
    · intro h
      cases h with
      | variant h1 h2 h3 h4 h5 h6 =>
        rw [hid'] at h2; cases h2
        rw [hvar] at h5; cases h5
        rw [hl'] at h6
        exact .variant h1 hid h3 h4 hvar ((hk.same _).2 h6)
      | nothing _ _ h2 h3 => rw [hid'] at h2; cases h2; rw [ht] at h3; cases h3
theorem again_pieces {l : List (Val × Field × Val)} {out : List (Val × Val)} : (h : Pieces env S' false l out) →
    (∀ p ∈ l, ∀ g, resolve env p.2.1 = some g → Everywhere env (Stable env S') g) →
    ∃ l', out = (l'.map fun p => (p.1, p.2.2)) ∧ KeptPieces env S S' b false l l'
  | .nil, _ => ⟨[], rfl, List.Sublist.slnil, fun _ => rfl, by simp, by simp, fun _ => Iff.rfl⟩
  | @Pieces.keep _ _ _ k f g x w r out hg hs hr, he => by
    obtain ⟨l', rfl, hk⟩ := again_pieces hr fun p hp => he p (List.mem_cons_of_mem _ hp)
    have ih := again_screened hs (he _ (List.mem_cons_self ..) g hg)
    refine ⟨(k, f, w) :: l', rfl, ?_, ?_, ?_, ?_, ?_⟩
    · exact hk.sub.cons_cons _
    · intro h
      simp only [List.map_cons, hk.all fun p hp => h p (List.mem_cons_of_mem _ hp)]
    · intro p hp g' hg' hS'
      rcases List.mem_cons.1 hp with rfl | hp
      · simp only at hg'
        rw [hg] at hg'; cases hg'
        exact ⟨w, List.mem_cons_self .., hs⟩
      · obtain ⟨w', h1, h2⟩ := hk.kept p hp g' hg' hS'
        exact ⟨w', List.mem_cons_of_mem _ h1, h2⟩
    · intro h p hp
      rcases List.mem_cons.1 hp with rfl | hp
      · exact screened_ne_none hs (h _ (List.mem_cons_self ..))
      · exact hk.some (fun p hp => h p (List.mem_cons_of_mem _ hp)) p hp
    · intro r1
      constructor
      · intro h
        cases h with
        | keep h1 h2 h3 =>
          rw [hg] at h1; cases h1
          exact .keep hg ((ih _).1 h2) ((hk.same _).1 h3)
        | drop h1 h2 h3 h4 => exact .drop h1 h2 h3 ((hk.same _).1 h4)
      · intro h
        cases h with
        | keep h1 h2 h3 =>
          rw [hg] at h1; cases h1
          exact .keep hg ((ih _).2 h2) ((hk.same _).2 h3)
        | drop h1 h2 h3 h4 => exact .drop h1 h2 h3 ((hk.same _).2 h4)
  | @Pieces.drop _ _ _ k f g x r out hg hd hs hr, he => by
    obtain ⟨l', rfl, hk⟩ := again_pieces hr fun p hp => he p (List.mem_cons_of_mem _ hp)
    refine ⟨l', rfl, ?_, ?_, ?_, ?_, ?_⟩
    · exact hk.sub.cons _
    · intro h
      exact absurd (h _ (List.mem_cons_self ..) g hg) hs
    · intro p hp g' hg' hS'
      rcases List.mem_cons.1 hp with rfl | hp
      · simp only at hg'
        rw [hg] at hg'; cases hg'
        exact absurd hS' hs
      · exact hk.kept p hp g' hg' hS'
    · intro h p hp
      exact hk.some (fun p hp => h p (List.mem_cons_of_mem _ hp)) p hp
    · intro r1
      rw [← hk.same]
      constructor
      · intro h
        cases h with
        | keep h1 h2 h3 =>
          rw [hg] at h1; cases h1
          exact absurd (hS _ (screened_wanted h2).1) hs
        | drop h1 h2 h3 h4 => exact h4
      · intro h
        exact .drop hg hd (fun h => hs (hS _ h)) h
end

end SX

end Scheme
