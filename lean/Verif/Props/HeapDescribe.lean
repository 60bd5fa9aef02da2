import Verif.Lemmas.HeapDescribe
import Verif.Spec.Traverse
import Verif.Props.Consume

/-! C97: a description is made of its own objects. -/

namespace Scheme

open HM

variable {env : Env}

theorem LeavesAlone.bind {α β : Type} {m : HM α} {k : α → HM β} (hm : LeavesAlone m) (hk : ∀ x, LeavesAlone (k x)) :
    LeavesAlone (m >>= k) := by
  intro h
  have h1 := hm h
  cases hr : m.run h with
  | mk o h' =>
    rw [hr] at h1
    cases o with
    | error e => rw [hm_error hr]; exact h1
    | ok x => rw [hm_ok hr]; exact Retains.trans h1 (hk x h')

theorem LeavesAlone.pure {α : Type} (x : α) : LeavesAlone (Pure.pure x : HM α) := fun h => Retains.refl h
theorem LeavesAlone.raise {α : Type} (e : Exn) : LeavesAlone (HM.raise e : HM α) := fun h => Retains.refl h
theorem LeavesAlone.lift {α : Type} (r : Except Exn α) : LeavesAlone (HM.lift r) := fun h => Retains.refl h
theorem LeavesAlone.get (a : Nat) : LeavesAlone (HM.get a) := fun h => Retains.refl h
theorem LeavesAlone.alloc (c : Cell) : LeavesAlone (HM.alloc c) := fun h => Retains.snoc h c

theorem LeavesAlone.build (v : Val) : LeavesAlone (build v) := by
  intro h
  obtain ⟨x, h', hr, hk, _⟩ := build_run v h
  rw [hr]; exact hk

theorem hDescItems_alone {rec : HVal → HM HVal} (hr : ∀ x, LeavesAlone (rec x)) : ∀ l, LeavesAlone (hDescItems rec l)
  | [] => .pure _
  | x :: l => .bind (hr x) fun _ => .bind (hDescItems_alone hr l) fun _ => .pure _

theorem hDescEntries_alone {rec : HVal → HM HVal} (hr : ∀ x, LeavesAlone (rec x)) : ∀ l, LeavesAlone (hDescEntries rec l)
  | [] => .pure _
  | (_, x) :: l => .bind (hr x) fun _ => .bind (hDescEntries_alone hr l) fun _ => .pure _

theorem hDescParam_alone (env : Env) : ∀ (n : Nat) (x : HVal), LeavesAlone (hDescParam env n x)
  | 0, _ => .raise _
  | n + 1, .ref a => by
    refine .bind (.get a) fun c => ?_
    match c with
    | some (.dict d) => exact .bind (hDescEntries_alone (hDescParam_alone env n) d) fun _ => .bind (.alloc _) fun _ => .pure _
    | some (.list l) => exact .bind (hDescItems_alone (hDescParam_alone env n) l) fun _ => .bind (.alloc _) fun _ => .pure _
    | some (.tuple l) => exact .bind (hDescItems_alone (hDescParam_alone env n) l) fun _ => .bind (.alloc _) fun _ => .pure _
    | some (.set _) => exact .raise _
    | none => exact .raise _
  | n + 1, .atom v => by
    have hother : LeavesAlone (do let w ← HM.lift (descParam env v); return HVal.atom w) := .bind (.lift _) fun _ => .pure _
    cases v <;> first | exact hother | exact .bind (.lift _) fun _ => .build _

/-- Code that changes, of the objects of `h0`, none. -/
def Spares {α : Type} (h0 : Heap) (m : HM α) : Prop := ∀ h, Retains h0 h → Retains h0 (m.run h).2

theorem Spares.bind {α β : Type} {h0 : Heap} {m : HM α} {k : α → HM β} (hm : Spares h0 m) (hk : ∀ x, Spares h0 (k x)) :
    Spares h0 (m >>= k) := by
  intro h hr
  have h1 := hm h hr
  cases ho : m.run h with
  | mk o h' =>
    rw [ho] at h1
    cases o with
    | error e => rw [hm_error ho]; exact h1
    | ok x => rw [hm_ok ho]; exact hk x h' h1

theorem hDescSet_spares {h0 : Heap} {n a : Nat} (ha : h0.length ≤ a) (name : Str) (x : HVal) : Spares h0 (hDescSet env n a name x) := by
  intro h hr
  have h1 := hr.trans (hDescParam_alone env n x h)
  unfold hDescSet
  dsimp only
  generalize (hDescParam env n x).run h = o at h1
  obtain ⟨y, h'⟩ := o
  cases y with
  | error e => cases e <;> exact h1
  | ok y =>
    dsimp only
    unfold putItem
    dsimp only
    split
    · exact h1.set ha _
    · exact h1

theorem hDescAspects_spares {h0 : Heap} {n a : Nat} (ha : h0.length ≤ a) : ∀ l, Spares h0 (hDescAspects env n a l)
  | [] => fun _ hr => hr
  | (name, x) :: l => by
    unfold hDescAspects
    by_cases hc : x.isNone = true
    · rw [if_pos hc]; exact hDescAspects_spares ha l
    · rw [if_neg hc]; exact (hDescSet_spares ha name x).bind fun _ => hDescAspects_spares ha l

theorem hDescTable_spares {h0 : Heap} {n a : Nat} (ha : h0.length ≤ a) (verbose : Bool) (skip : List Str) :
    ∀ l, Spares h0 (hDescTable env n a verbose skip l)
  | [] => fun _ hr => hr
  | (name, x, d) :: l => by
    unfold hDescTable
    by_cases hc : (skip.contains name || x.isNone || (!verbose && hIsDefault x d)) = true
    · rw [if_pos hc]; exact hDescTable_spares ha verbose skip l
    · rw [if_neg hc]; exact (hDescSet_spares ha name x).bind fun _ => hDescTable_spares ha verbose skip l

theorem hDescOver_spares {h0 : Heap} {n a : Nat} (ha : h0.length ≤ a) (verbose : Bool) : ∀ l, Spares h0 (hDescOver env n a verbose l)
  | [] => fun _ hr => hr
  | (name, x) :: l => by
    unfold hDescOver
    by_cases hc : (!verbose && x.isNone) = true
    · rw [if_pos hc]; exact hDescOver_spares ha verbose l
    · rw [if_neg hc]; exact (hDescSet_spares ha name x).bind fun _ => hDescOver_spares ha verbose l

/-- C97: describing changes no object there is, whatever the field holds, described or not. -/
theorem C97_untouched (env : Env) (n : Nat) (verbose : Bool) (type : Str) (aspects : List (Str × HVal)) (table : List (Str × HVal × Val))
    (over : List (Str × HVal)) : LeavesAlone (hDescribe env n verbose type aspects table over) := by
  intro h
  unfold hDescribe
  rw [bind_alloc]
  have hle := Nat.le_refl h.length
  exact Spares.bind (hDescAspects_spares hle aspects) (fun _ => Spares.bind (hDescTable_spares hle verbose _ table) fun _ =>
    Spares.bind (hDescOver_spares hle verbose over) fun _ h' hr => hr) _ (Retains.snoc h _)

variable {n : Nat} {h : Heap} {verbose : Bool} {type : Str} {c : Common} {structural : Bool} {table : List (Str × Val × Val)}
  {over : List (Str × Val)} {xa : List (Str × HVal)} {xt : List (Str × HVal × Val)} {xo : List (Str × HVal)}

/-- C97: the outcome is that on values; the description is put together from new containers only, none of them used twice, however
the objects the field holds are shared. -/
theorem C97_own (hp : PlainDescriptions env) (hh : Holding h n c structural table over xa xt xo) (verbose : Bool) (type : Str) :
    (∀ w, descBase env verbose type c structural table over = .ok w →
      ∃ x h', (hDescribe env n verbose type xa xt xo).run h = (.ok x, h') ∧ Retains h h' ∧ OwnSince h h' x w) ∧
    ∀ e, descBase env verbose type c structural table over = .error e → ((hDescribe env n verbose type xa xt xo).run h).1 = .error e := by
  have hs := hDescribe_sim hp verbose type hh.holdsAspects hh.holdsTable hh.holdsOver hh.inAspects hh.inTable hh.inOver
  obtain ⟨hk, hs⟩ := hs
  generalize (hDescribe env n verbose type xa xt xo).run h = o at hk hs
  obtain ⟨x, h'⟩ := o
  constructor
  · intro w hw
    rw [hw] at hs
    cases x with
    | error e => exact hs.elim
    | ok x => exact ⟨x, h', rfl, hk, hs⟩
  · intro e he
    rw [he] at hs
    cases x with
    | error e' => exact congrArg _ hs
    | ok x => exact hs.elim

theorem OwnSince.depicts {h h' : Heap} {x : HVal} {w : Val} (ho : OwnSince h h' x w) : Depicts (part h' (h.length ≤ ·)) x w := by
  obtain ⟨m, hm, _, hlo⟩ := ho
  exact hm.depicts.mono (part_keeps (Retains.refl _) hlo)

/-- C97: nothing done to the description later is seen in what the field holds, and nothing done to that is seen in the description. -/
theorem C97_apart (hp : PlainDescriptions env) (hh : Holding h n c structural table over xa xt xo) {w : Val} {x : HVal} {h' : Heap}
    (hw : descBase env verbose type c structural table over = .ok w)
    (hr : (hDescribe env n verbose type xa xt xo).run h = (.ok x, h')) (later : Heap) :
    ((∀ i : Nat, h.length ≤ i → i < h'.length → later[i]? = h'[i]?) → Depicts later.cells x w) ∧
    ((∀ i : Nat, i < h.length → later[i]? = h'[i]?) → ∀ y v, Depicts h.cells y v → Depicts later.cells y v) := by
  obtain ⟨x', h'', hr', hk, m, hm, _, hlo⟩ := (C97_own hp hh verbose type).1 w hw
  rw [hr] at hr'
  cases hr'
  constructor
  · intro hsame
    exact (hm.frame fun i hi => hsame i (hlo i hi) (hm.lt i hi)).depicts.mono (part_le_cells _ _)
  · intro hsame y v hy
    refine hy.mono fun i cell hi => ?_
    have hlt := getElem?_lt hi
    exact ((hsame i hlt).trans (hk.2 i hlt)).trans hi

theorem WithoutTypes.length {l : List Nat} {h h' : Heap} (hw : WithoutTypes l h h') : h'.length = h.length := by
  have hs : ∀ i : Nat, h'[i]? = none ↔ h[i]? = none := by
    intro i
    by_cases hi : i ∈ l
    · obtain ⟨d, h1, h2⟩ := (hw i).1 hi
      rw [h1, h2]; exact ⟨(fun h => nomatch h), (fun h => nomatch h)⟩
    · rw [(hw i).2 hi]
  have h1 : h.length ≤ h'.length := List.getElem?_eq_none_iff.1 ((hs _).1 (List.getElem?_eq_none (Nat.le_refl _)))
  have h2 : h'.length ≤ h.length := List.getElem?_eq_none_iff.1 ((hs _).2 (List.getElem?_eq_none (Nat.le_refl _)))
  omega

/-- C97: a description is read as its value is, whatever has been done to other objects since; reading it makes no objects and changes none
but the description's own. -/
theorem C97_reread {env' : Env} {k : Nat} {f : Field} {h h1 h' : Heap} {x : HVal} {w : Val} (ho : OwnSince h h1 x w)
    (hsame : ∀ i : Nat, h.length ≤ i → i < h1.length → h'[i]? = h1[i]?) (hf : reconstruct env' k w = .ok f) :
    ∃ h'', (hReconstruct env' k x).run h' = (.ok f, h'') ∧ h''.length = h'.length ∧
      ∀ i : Nat, (i < h.length ∨ h1.length ≤ i) → h''[i]? = h'[i]? := by
  obtain ⟨m, hm, hn, hlo⟩ := ho
  have hm' : MadeOf h' x w m := hm.frame fun i hi => hsame i (hlo i hi) (hm.lt i hi)
  obtain ⟨l, hd, hsub⟩ := hm'.described
  obtain ⟨h'', hr, hw⟩ := (C92_exact (env := env') k hd (hsub.nodup hn) (fun _ _ hP => hP)).1 f hf
  refine ⟨h'', hr, hw.length, fun i hi => (hw i).2 fun hil => ?_⟩
  have h2 := hlo i (hsub.subset hil)
  have h3 := hm.lt i (hsub.subset hil)
  omega

theorem HeldAs.keep {h h' : Heap} (hk : Retains h h') {l : List (Str × HVal)} {vs : List (Str × Val)} (hl : HeldAs h l vs) : HeldAs h' l vs := by
  induction hl with
  | nil => exact .nil
  | cons hx _ ih => exact .cons (hx.mono (cells_keep hk)) ih

theorem HeldTable.keep {h h' : Heap} (hk : Retains h h') {l : List (Str × HVal × Val)} {vs : List (Str × Val × Val)} (hl : HeldTable h l vs) :
    HeldTable h' l vs := by
  induction hl with
  | nil => exact .nil
  | cons hx _ ih => exact .cons (hx.mono (cells_keep hk)) ih

theorem Holding.keep {h' : Heap} (hk : Retains h h') (hh : Holding h n c structural table over xa xt xo) :
    Holding h' n c structural table over xa xt xo :=
  ⟨hh.holdsAspects.keep hk, hh.holdsTable.keep hk, hh.holdsOver.keep hk, hh.inAspects, hh.inTable, hh.inOver⟩

/-- C97: a field can be described, rebuilt from the description, described again and rebuilt again, each time with the same outcome
and without a trace in what it holds; the two descriptions have no containers in common. -/
theorem C97_again (hp : PlainDescriptions env) (hh : Holding h n c structural table over xa xt xo) {w : Val} {f : Field} {k : Nat}
    {env' : Env} (hw : descBase env verbose type c structural table over = .ok w) (hf : reconstruct env' k w = .ok f) :
    ∃ x1 h1 h2 x2 h3 h4, (hDescribe env n verbose type xa xt xo).run h = (.ok x1, h1) ∧ (hReconstruct env' k x1).run h1 = (.ok f, h2) ∧
      (hDescribe env n verbose type xa xt xo).run h2 = (.ok x2, h3) ∧ (hReconstruct env' k x2).run h3 = (.ok f, h4) ∧
      Retains h h4 ∧ OwnSince h h1 x1 w ∧ OwnSince h1 h3 x2 w := by
  obtain ⟨x1, h1, hr1, hk1, ho1⟩ := (C97_own hp hh verbose type).1 w hw
  obtain ⟨h2, hr2, hl2, hs2⟩ := C97_reread (env' := env') ho1 (fun _ _ _ => rfl) hf
  have hk2 : Retains h h2 := ⟨hl2 ▸ hk1.1, fun i hi => (hs2 i (.inl hi)).trans (hk1.2 i hi)⟩
  obtain ⟨x2, h3, hr3, hk3, ho3⟩ := (C97_own hp (hh.keep hk2) verbose type).1 w hw
  obtain ⟨h4, hr4, hl4, hs4⟩ := C97_reread (env' := env') ho3 (fun _ _ _ => rfl) hf
  have hk4 : Retains h2 h4 := ⟨hl4 ▸ hk3.1, fun i hi => (hs4 i (.inl hi)).trans (hk3.2 i hi)⟩
  refine ⟨x1, h1, h2, x2, h3, h4, hr1, hr2, hr3, hr4, hk2.trans hk4, ho1, ?_⟩
  obtain ⟨m, hm, hn, hlo⟩ := ho3
  exact ⟨m, hm, hn, fun i hi => hl2 ▸ hlo i hi⟩

/-! ### a case -/

namespace Ex

def oneV : Val := .dict [(.str c!"a", .int 1)]
/-- A field with the default `[d, d]`, `d` being the dict `{'a': 1}`. -/
def twiceCommon : Common := { default := .list [oneV, oneV], aspects := [(c!"unit", .str c!"m"), (c!"key", .obj 7)] }
def twiceHeap : Heap := [.dict [(.atom (.str c!"a"), .atom (.int 1))], .list [.ref 0, .ref 0]]
def twiceTable : List (Str × HVal × Val) :=
  (baseTable twiceCommon false).map fun e => (e.1, (if e.1 = c!"default" then .ref 1 else .atom e.2.1), e.2.2)
def twiceAspects : List (Str × HVal) := [(c!"unit", .atom (.str c!"m")), (c!"key", .atom (.obj 7))]

theorem twice_holding : Holding twiceHeap 4 twiceCommon false [] [] twiceAspects twiceTable [] := by
  have hint : Depicts twiceHeap.cells (.ref 0) oneV := .dict rfl (.cons (.atom rfl) (.atom rfl) .nil)
  refine ⟨.cons (.atom rfl) (.cons (.atom rfl) .nil), ?_, .nil, ?_, ?_, (fun _ h => nomatch h)⟩
  · exact .cons (.atom rfl) (.cons (.atom rfl) (.cons (.atom rfl) (.cons (.list rfl (.cons hint (.cons hint .nil)))
      (.cons (.atom rfl) (.cons (.atom rfl) (.cons (.atom rfl) (.cons (.atom rfl) (.cons (.atom rfl) (.cons (.atom rfl) .nil)))))))))
  · intro e he
    simp only [twiceCommon, List.mem_cons, List.not_mem_nil, or_false] at he
    rcases he with rfl | rfl <;> exact ⟨trivial, by decide⟩
  · intro e he
    simp only [baseTable, twiceCommon, List.append_nil, List.mem_cons, List.not_mem_nil, or_false] at he
    rcases he with rfl | rfl | rfl | rfl | rfl | rfl | rfl | rfl | rfl | rfl <;>
      first | exact ⟨trivial, by decide⟩ | exact ⟨⟨⟨rfl, trivial, trivial⟩, ⟨rfl, trivial, trivial⟩, trivial⟩, by decide⟩

end Ex

/-- Its description has two dicts where the default has one; the aspect that cannot be described is left out. -/
example : ∃ x h', (hDescribe Ex.env 4 false c!"field" Ex.twiceAspects Ex.twiceTable []).run Ex.twiceHeap = (.ok x, h') ∧
    Retains Ex.twiceHeap h' ∧ OwnSince Ex.twiceHeap h' x (.dict [(.str c!"fieldtype", .str c!"field"), (.str c!"unit", .str c!"m"),
      (.str c!"default", .list [Ex.oneV, Ex.oneV])]) :=
  (C97_own (env := Ex.env) (fun _ _ h => nomatch h) Ex.twice_holding false c!"field").1 _ rfl

/-- It can be described and rebuilt twice. -/
example : ∃ f x1 h1 h2 x2 h3 h4, (hDescribe Ex.env 4 false c!"field" Ex.twiceAspects Ex.twiceTable []).run Ex.twiceHeap = (.ok x1, h1) ∧
    (hReconstruct Ex.env 5 x1).run h1 = (.ok f, h2) ∧
    (hDescribe Ex.env 4 false c!"field" Ex.twiceAspects Ex.twiceTable []).run h2 = (.ok x2, h3) ∧
    (hReconstruct Ex.env 5 x2).run h3 = (.ok f, h4) ∧ Retains Ex.twiceHeap h4 :=
  have ⟨x1, h1, h2, x2, h3, h4, a, b, c, d, e, _, _⟩ :=
    C97_again (env := Ex.env) (env' := Ex.env) (k := 5) (verbose := false) (type := c!"field") (fun _ _ h => nomatch h) Ex.twice_holding rfl rfl
  ⟨_, x1, h1, h2, x2, h3, h4, a, b, c, d, e⟩

end Scheme
