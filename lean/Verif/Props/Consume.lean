import Verif.Lemmas.HeapReconstruct
import Verif.Lemmas.HeapProcess
import Verif.Props.Sharing
import Verif.Spec.Examples

/-! C92: reading a description takes `fieldtype` out of it. -/

namespace Scheme

open HM

/-- Whatever it is given - accepted or refused, shared, or containing itself - reading a description makes no objects, and
changes none but by taking the entry `fieldtype` out of dicts met in the description. -/
theorem C92_only_types {env : Env} (n : Nat) (x : HVal) {h : Heap} (hp : OneType h) :
    LostTypes h ((hReconstruct env n x).run h).2 (MetIn h x) := hReconstruct_takes n hp x

/-- If no dict with `fieldtype` is met twice in the object, then it is read as its value is, and afterwards all of these
dicts, and no others, are without `fieldtype`. -/
theorem C92_exact {env : Env} (n : Nat) {h : Heap} {P : Nat → Prop} {x : HVal} {v : Val} {l : List Nat} (hd : Described h P x v l)
    (hn : l.Nodup) (hP : ∀ i ∈ l, ¬ P i) :
    (∀ f, reconstruct env n v = .ok f → ∃ h', (hReconstruct env n x).run h = (.ok f, h') ∧ WithoutTypes l h h') ∧
    (∀ e, reconstruct env n v = .error e → ∃ e', ((hReconstruct env n x).run h).1 = .error e') := by
  have hb := hReconstruct_both (env := env) n hd hn hP
  constructor
  · intro f hf; rw [hf] at hb; exact hb
  · intro e hf; rw [hf] at hb; exact hb

theorem dropType_filter {d : List (HVal × HVal)} (hn : ¬ HasType (dropType d)) : dropType d = d.filter fun e => !isFieldtype e.1 := by
  induction d with
  | nil => rfl
  | cons e r ih =>
    obtain ⟨k, x⟩ := e
    cases hk : isFieldtype k with
    | true =>
      rw [isFieldtype_iff] at hk
      subst hk
      have hd : dropType ((HVal.atom (.str c!"fieldtype"), x) :: r) = r := rfl
      rw [hd] at hn ⊢
      rw [List.filter_cons_of_neg (by simp [isFieldtype_iff.2 rfl]), List.filter_eq_self.2]
      intro e he
      have := (hasType_any (d := r)).not.2 hn
      simp only [Bool.not_eq_true, List.any_eq_false] at this
      simpa using this e he
    | false =>
      rw [dropType_cons hk] at hn ⊢
      rw [List.filter_cons_of_pos (by simp [hk]), ih]
      rintro ⟨y, hy⟩
      exact hn ⟨y, List.mem_cons_of_mem _ hy⟩

mutual
theorem Described.left {L : List Nat} {P : Nat → Prop} {h h' : Heap} (hp : OneType h) (hs : Shed L P h h') {x : HVal} {v : Val}
    {m : List Nat} (hd : Described h P x v m) (hm : ∀ i ∈ m, i ∈ L) : Depicts h'.cells x (leftOver v) := by
  match hd with
  | .atom ha =>
    cases v <;> first
      | (cases ha; done)
      | exact .atom rfl
  | .list ha hr => exact .list (hs.cell ha fun _ e => nomatch e) (hr.left hp hs hm)
  | .tuple ha hr => exact .tuple (hs.cell ha fun _ e => nomatch e) (hr.left hp hs hm)
  | .plain (d := d) ha ht hr =>
    refine .dict (hs.cell ha fun _ e => by cases e; exact ht) ?_
    have := hr.left hp hs hm
    rwa [List.filter_eq_self.2] at this
    intro e he
    have ht' := (hasType_any (d := d)).not.2 ht
    simp only [Bool.not_eq_true, List.any_eq_false] at ht'
    simpa using ht' e he
  | .field (d := d) ha ht hr =>
    obtain ⟨d', hd', hd''⟩ := (hs.out _).1 (hm _ (List.mem_cons_self ..))
    rw [ha] at hd'
    cases hd'
    refine .dict hd'' ?_
    rw [dropType_filter (hp _ _ ha)]
    exact hr.left hp hs fun i hi => hm i (List.mem_cons_of_mem _ hi)
theorem DescribedL.left {L : List Nat} {P : Nat → Prop} {h h' : Heap} (hp : OneType h) (hs : Shed L P h h') {x : List HVal} {v : List Val}
    {m : List Nat} (hd : DescribedL h P x v m) (hm : ∀ i ∈ m, i ∈ L) : DepictsL h'.cells x (leftOverL v) := by
  match hd with
  | .nil => exact .nil
  | .cons ha hr =>
    exact .cons (ha.left hp hs fun i hi => hm i (List.mem_append_left _ hi)) (hr.left hp hs fun i hi => hm i (List.mem_append_right _ hi))
theorem DescribedD.left {L : List Nat} {P : Nat → Prop} {h h' : Heap} (hp : OneType h) (hs : Shed L P h h') {x : List (HVal × HVal)}
    {v : List (Val × Val)} {m : List Nat} (hd : DescribedD h P x v m) (hm : ∀ i ∈ m, i ∈ L) :
    DepictsD h'.cells (x.filter fun e => !isFieldtype e.1) (leftOverD v) := by
  match hd with
  | .nil => exact .nil
  | .cons (k := k) hk ha hr =>
    have hrest := hr.left hp hs fun i hi => hm i (List.mem_append_right _ hi)
    unfold leftOverD
    rw [key_type hk]
    cases hkt : isFieldtype k with
    | true => rw [List.filter_cons_of_neg (by simp [hkt])]; exact hrest
    | false =>
      rw [List.filter_cons_of_pos (by simp [hkt])]
      exact .cons ((hk.mono hs.keys).mono (part_le_cells _ _)) (ha.left hp hs fun i hi => hm i (List.mem_append_left _ hi)) hrest
end

/-- What is left is the description without any of its `fieldtype` entries. -/
theorem C92_left_over {env : Env} {n : Nat} {h h' : Heap} {P : Nat → Prop} {x : HVal} {v : Val} {l : List Nat} {f : Field} (hp : OneType h)
    (hd : Described h P x v l) (hn : l.Nodup) (hP : ∀ i ∈ l, ¬ P i) (hv : reconstruct env n v = .ok f)
    (hr : (hReconstruct env n x).run h = (.ok f, h')) : Depicts h'.cells x (leftOver v) := by
  obtain ⟨h'', hr', hw⟩ := (C92_exact n hd hn hP).1 f hv
  rw [hr] at hr'
  cases hr'
  exact hd.left hp ⟨hw, hd.typed, hP⟩ fun _ hi => hi

theorem untyped_after {env : Env} (n : Nat) {h : Heap} (hp : OneType h) (a : Nat) :
    ∀ d, ((hReconstruct env n (.ref a)).run h).2[a]? = some (.dict d) → ¬ HasType d := by
  have hget : (HM.get a).run h = (.ok h[a]?, h) := rfl
  unfold hReconstruct
  dsimp only
  rw [hm_ok hget]
  cases hc : h[a]? with
  | none => intro d hd; change h[a]? = _ at hd; rw [hc] at hd; cases hd
  | some c =>
    cases c with
    | dict d0 =>
      dsimp only
      intro d hd
      by_cases ht : HasType d0
      · obtain ⟨x, _, _, hpop⟩ := popFieldtype_some hc ht
        have hl1 : LostTypes h (h.set a (.dict (dropType d0))) (MetIn h (.ref a)) := by
          have := popFieldtype_takes (h := h) (a := a) (S := MetIn h (.ref a)) .here
          unfold TakesAt at this
          rw [hpop] at this
          exact this
        have hcell : (h.set a (.dict (dropType d0)))[a]? = some (.dict (dropType d0)) := by
          rw [List.getElem?_set_self (List.getElem?_eq_some_iff.1 hc).1]
        unfold hReconstructDict at hd
        rw [hm_ok hpop] at hd
        rcases hConstructField_takes (env := env) (hConstructArg_takes (env := env) n) hp hl1 x a with he | ⟨_, d1, ht1, h1, _⟩
        · rw [hd, hcell] at he
          cases he
          exact hp a _ hc
        · rw [hcell] at h1
          cases h1
          exact absurd ht1 (hp a _ hc)
      · rcases hReconstructDict_takes (env := env) (hConstructArg_takes (env := env) n) hp a a with he | ⟨_, d1, ht1, h1, _⟩
        · rw [hd, hc] at he; cases he; exact ht
        · rw [hc] at h1; cases h1; exact absurd ht1 ht
    | _ => intro d hd; change h[a]? = _ at hd; rw [hc] at hd; cases hd

/-- So it works once: when a description has been read, or refused, reading the same object again raises ValueError, and
changes nothing. -/
theorem C92_once {env env' : Env} (n n' : Nat) {h : Heap} (hp : OneType h) (a : Nat) :
    let h' := ((hReconstruct env n (.ref a)).run h).2
    (hReconstruct env' n' (.ref a)).run h' = (.error (.py .valueError), h') := by
  intro h'
  have hu := untyped_after (env := env) n hp a
  change ∀ d, h'[a]? = _ → _ at hu
  show (HM.get a >>= _).run h' = _
  have hget : (HM.get a).run h' = (.ok h'[a]?, h') := rfl
  rw [hm_ok hget]
  cases hc : h'[a]? with
  | none => rfl
  | some c =>
    cases c with
    | dict d =>
      show (hReconstructDict env' (hConstructArg env' n') a).run h' = _
      unfold hReconstructDict
      rw [hm_ok (popFieldtype_none hu)]
      rfl
    | _ => rfl

/-! ### Definition and Surrogate -/

mutual
theorem Depicts.after {h h' : Heap} {S : Nat → Prop} (hl : LostTypes h h' S) {x : HVal} {v : Val} (hx : Depicts h.cells x v) :
    ∃ w, Depicts h'.cells x w := by
  match hx with
  | .atom ha => exact ⟨_, .atom ha⟩
  | .list (a := a) ha hr =>
    obtain ⟨ws, hw⟩ := hr.after hl
    rcases hl a with he | ⟨_, d, _, h1, _⟩
    · exact ⟨_, .list (he.trans ha) hw⟩
    · change h[a]? = _ at ha; rw [ha] at h1; cases h1
  | .tuple (a := a) ha hr =>
    obtain ⟨ws, hw⟩ := hr.after hl
    rcases hl a with he | ⟨_, d, _, h1, _⟩
    · exact ⟨_, .tuple (he.trans ha) hw⟩
    · change h[a]? = _ at ha; rw [ha] at h1; cases h1
  | .dict (a := a) (d := d) ha hr =>
    rcases hl a with he | ⟨_, d', _, h1, h2⟩
    · obtain ⟨ws, hw⟩ := hr.after hl (List.Sublist.refl d)
      exact ⟨_, .dict (he.trans ha) hw⟩
    · change h[a]? = _ at ha
      rw [ha] at h1
      cases h1
      obtain ⟨ws, hw⟩ := hr.after hl (d' := dropType d) (by rw [← eraseP_dropType]; exact List.eraseP_sublist)
      exact ⟨_, .dict h2 hw⟩
theorem DepictsL.after {h h' : Heap} {S : Nat → Prop} (hl : LostTypes h h' S) {x : List HVal} {v : List Val} (hx : DepictsL h.cells x v) :
    ∃ w, DepictsL h'.cells x w := by
  match hx with
  | .nil => exact ⟨_, .nil⟩
  | .cons ha hr =>
    obtain ⟨w, hw⟩ := ha.after hl
    obtain ⟨ws, hws⟩ := hr.after hl
    exact ⟨_, .cons hw hws⟩
theorem DepictsD.after {h h' : Heap} {S : Nat → Prop} (hl : LostTypes h h' S) {x : List (HVal × HVal)} {v : List (Val × Val)}
    (hx : DepictsD h.cells x v) {d' : List (HVal × HVal)} (hd : d'.Sublist x) : ∃ w, DepictsD h'.cells d' w := by
  match hx, hd with
  | .nil, .slnil => exact ⟨_, .nil⟩
  | .cons _ _ hr, .cons _ hd => exact hr.after hl hd
  | .cons hk ha hr, .cons_cons _ hd =>
    obtain ⟨w, hw⟩ := ha.after hl
    obtain ⟨k, hk⟩ := hk.after hl
    obtain ⟨ws, hws⟩ := hr.after hl hd
    exact ⟨_, .cons hk hw hws⟩
end

theorem cells_part (h : Heap) : h.cells = part h (· < h.length) := (part_all h).symm

theorem hLeaf_effect {env : Env} {E : HEnv} {c : Common} {k : Leaf} {a : Nat} {v : Val} {h h' : Heap} {anc : List Str}
    (hx : Depicts h.cells (.ref a) v) (hk : k.takes = true) (ht : (E.take k (.ref a)).run h = (.ok (), h')) :
    Retains h' ((hLeaf env E c k (.ref a) .inbound true anc).run h).2 ∧
    ∀ e, processLeaf env c k v .inbound true anc = .error e → (hLeaf env E c k (.ref a) .inbound true anc).run h = (.error e, h') := by
  have hho : k.handsOut = false := by cases k <;> first | rfl | cases hk
  rw [cells_part] at hx
  unfold hLeaf
  rw [bind_read hx, hm_ok (m := hTake E k (.ref a) .inbound true) (x := ()) (h' := h') (by unfold hTake; simp [hk, ht])]
  cases hp : processLeaf env c k v .inbound true anc with
  | error e => exact ⟨Retains.refl _, fun e' he => by cases he; rfl⟩
  | ok w =>
    refine ⟨?_, fun _ he => nomatch he⟩
    rw [bind_lift]
    dsimp only
    rw [hho]
    obtain ⟨y, h2, hr, hk2, _⟩ := build_run w h'
    simp only [Bool.false_and, Bool.false_eq_true, if_false]
    rw [hr]
    exact hk2

/-- Unserializing a dict by a Definition field does to the objects that exist what reading it as a description does,
whether it is accepted or refused. -/
theorem C92_definition {env : Env} {E : HEnv} {m : Nat} (hE : E.take = takeDescriptions env m) {h : Heap} (hp : OneType h) {a : Nat} {v : Val}
    (hx : Depicts h.cells (.ref a) v) (n : Nat) (c : Common) (valid : List Str) (anc : List Str) (i : Nat) (hi : i < h.length) :
    ((hProcess env E (n + 1) (.leaf c (.definition valid)) (.ref a) .inbound true anc).run h).2[i]? =
      ((hReconstruct env m (.ref a)).run h).2[i]? := by
  have ht : (E.take (.definition valid) (.ref a)).run h = (.ok (), ((hReconstruct env m (.ref a)).run h).2) := by rw [hE]; rfl
  refine (hLeaf_effect (env := env) (c := c) (anc := anc) hx rfl ht).1.2 i ?_
  have hl := C92_only_types (env := env) m (.ref a) hp i
  have hs : ∃ c, h[i]? = some c := ⟨_, List.getElem?_eq_getElem hi⟩
  have : ∃ c, ((hReconstruct env m (.ref a)).run h).2[i]? = some c := by
    rcases hl with he | ⟨_, d, _, _, h2⟩
    · rw [he]; exact hs
    · exact ⟨_, h2⟩
  obtain ⟨c', hc'⟩ := this
  exact (List.getElem?_eq_some_iff.1 hc').1

theorem dictGet_untyped {m : Cells} : ∀ {d : List (HVal × HVal)} {vs : List (Val × Val)}, DepictsD m d vs → ¬ HasType d →
    dictGet vs (.str c!"fieldtype") = none
  | [], _, .nil, _ => rfl
  | (k, x) :: d, (vk, v) :: vs, .cons hk hx hr, hn => by
    have ih := dictGet_untyped hr fun ⟨y, hy⟩ => hn ⟨y, List.mem_cons_of_mem _ hy⟩
    have hkey : pyEq (.str c!"fieldtype") vk = isFieldtype k := by
      rw [Bool.eq_iff_iff, pyEq_str, isFieldtype_iff]
      constructor
      · rintro rfl; cases hk; rfl
      · rintro rfl; cases hk; rfl
    unfold dictGet
    rw [hkey]
    cases hkt : isFieldtype k with
    | true => exact absurd ⟨x, by rw [isFieldtype_iff.1 hkt]; exact List.mem_cons_self ..⟩ hn
    | false => exact ih

/-- Descriptions without `fieldtype` are not descriptions. -/
def NoTypeNoField (env : Env) : Prop := ∀ d, dictGet d (.str c!"fieldtype") = none → env.reconstruct (.dict d) = none

/-- It is so if only what `Field.reconstruct` accepts is taken for a description. -/
theorem noTypeNoField {env : Env} {n : Nat} (h : ∀ v i, env.reconstruct v = some i → ∃ f, reconstruct env n v = .ok f) : NoTypeNoField env := by
  intro d hd
  cases hc : env.reconstruct (.dict d) with
  | none => rfl
  | some i =>
    obtain ⟨f, hf⟩ := h _ _ hc
    unfold reconstruct reconstructDict at hf
    dsimp only at hf
    rw [hd] at hf
    cases hf

/-- So a dict can be given to a Definition field once: after that it is refused as invalid, whatever the outcome was the first
time. -/
theorem C92_definition_once {env : Env} {E : HEnv} {m : Nat} (hE : E.take = takeDescriptions env m) (hr : NoTypeNoField env) {h : Heap}
    (hp : OneType h) {a : Nat} {vs : List (Val × Val)} (hx : Depicts h.cells (.ref a) (.dict vs)) (n n' : Nat) (c : Common) (valid : List Str)
    (anc : List Str) :
    let h' := ((hProcess env E (n + 1) (.leaf c (.definition valid)) (.ref a) .inbound true anc).run h).2
    ∃ w, ((hProcess env E (n' + 1) (.leaf c (.definition valid)) (.ref a) .inbound true anc).run h').1 =
      .error (mkErr (.leaf c (.definition valid)) .validation (ancOr (.leaf c (.definition valid)) anc) w c!"invalid" []) := by
  intro h'
  have hl : LostTypes h ((hReconstruct env m (.ref a)).run h).2 (MetIn h (.ref a)) := C92_only_types m (.ref a) hp
  have hcells : ∀ i, i < h.length → h'[i]? = ((hReconstruct env m (.ref a)).run h).2[i]? :=
    C92_definition hE hp hx n c valid anc
  obtain ⟨w, hw⟩ := hx.after hl
  have hret : Retains ((hReconstruct env m (.ref a)).run h).2 h' :=
    (hLeaf_effect (env := env) (c := c) (anc := anc) hx rfl
      (show (E.take (.definition valid) (.ref a)).run h = (.ok (), ((hReconstruct env m (.ref a)).run h).2) by rw [hE]; rfl)).1
  have hw' : Depicts h'.cells (.ref a) w := hw.mono fun i c hi => (hret.2 i (List.getElem?_eq_some_iff.1 hi).1).trans hi
  have hu := untyped_after (env := env) m hp a
  cases hx with
  | @dict _ d0 _ ha _ =>
    change h[a]? = _ at ha
    have hlt : a < h.length := (List.getElem?_eq_some_iff.1 ha).1
    have hisd : ∃ d, h'[a]? = some (.dict d) := by
      rcases hl a with he | ⟨_, d, _, _, h2⟩
      · exact ⟨_, (hcells a hlt).trans (he.trans ha)⟩
      · exact ⟨_, (hcells a hlt).trans h2⟩
    obtain ⟨d, hd⟩ := hisd
    have hnt : ¬ HasType d := hu d (by rw [← hcells a hlt]; exact hd)
    cases hw' with
    | list h1 => change h'[a]? = _ at h1; rw [hd] at h1; cases h1
    | tuple h1 => change h'[a]? = _ at h1; rw [hd] at h1; cases h1
    | @dict _ d1 ws h1 hds =>
      change h'[a]? = _ at h1
      rw [hd] at h1
      cases h1
      refine ⟨.dict ws, ?_⟩
      have hg : dictGet ws (.str c!"fieldtype") = none := dictGet_untyped hds hnt
      have hv : processLeaf env c (.definition valid) (.dict ws) .inbound true anc =
          .error (mkErr (.leaf c (.definition valid)) .validation (ancOr (.leaf c (.definition valid)) anc) (.dict ws) c!"invalid" []) := by
        rw [processLeaf_eq]
        show (decodeStep _ _ _ _ _ _ _ >>= _) = _
        unfold decodeStep unserializeLeaf
        simp only [and_self, if_true]
        rw [hr ws hg]
        rfl
      have ht : (E.take (.definition valid) (.ref a)).run h' = (.ok (), ((hReconstruct env m (.ref a)).run h').2) := by rw [hE]; rfl
      exact congrArg Prod.fst ((hLeaf_effect (env := env) (c := c) (anc := anc) (.dict hd hds) rfl ht).2 _ hv)

/-- A dict given to a Surrogate field loses what reading its entry `__schema__` as a description takes. -/
theorem C92_surrogate {env : Env} {E : HEnv} {m : Nat} (hE : E.take = takeDescriptions env m) {h : Heap} (hp : OneType h) {a : Nat}
    {d : List (HVal × HVal)} {x : HVal} {v : Val} (ha : h[a]? = some (.dict d)) (hs : (HVal.atom (.str c!"__schema__"), x) ∈ d)
    (hone : ∀ y, (HVal.atom (.str c!"__schema__"), y) ∈ d → y = x) (hx : Depicts h.cells (.ref a) v) (n : Nat) (c : Common)
    (valid : List Str) (anc : List Str) (i : Nat) (hi : i < h.length) :
    ((hProcess env E (n + 1) (.leaf c (.surrogate valid)) (.ref a) .inbound true anc).run h).2[i]? =
      ((hReconstruct env m x).run h).2[i]? := by
  have hfind : d.find? (fun e => isNamed c!"__schema__" e.1) =
      some (.atom (.str c!"__schema__"), x) := by
    cases hf : d.find? (fun e => isNamed c!"__schema__" e.1) with
    | none =>
      have := List.find?_eq_none.1 hf _ hs
      exact absurd rfl this
    | some e =>
      have h1 := List.find?_some hf
      have h2 := List.mem_of_find?_eq_some hf
      obtain ⟨k, y⟩ := e
      cases k with
      | ref b => cases h1
      | atom k =>
        cases k <;> first
          | (cases h1; done)
          | (have h1 := eq_of_beq h1
             subst h1
             rw [hone y h2])
  have hent : (entryAt c!"__schema__" a).run h = (.ok (some x), h) := by
    show (match h[a]? with
      | some (.dict d) => _
      | _ => _) = _
    rw [ha]
    dsimp only
    rw [hfind]
    rfl
  have ht : (E.take (.surrogate valid) (.ref a)).run h = (.ok (), ((hReconstruct env m x).run h).2) := by
    rw [hE]
    unfold takeDescriptions
    rw [hm_ok hent]
    rfl
  refine (hLeaf_effect (env := env) (c := c) (anc := anc) hx rfl ht).1.2 i ?_
  rcases C92_only_types (env := env) m x hp i with he | ⟨_, d, _, _, h2⟩
  · rw [List.getElem?_eq_getElem hi] at he
    exact (List.getElem?_eq_some_iff.1 he).1
  · exact (List.getElem?_eq_some_iff.1 h2).1

/-! ### Cases -/

namespace Ex

/-- `{'fieldtype': 'integer'}` -/
def plainType : Heap := [.dict [(.atom (.str c!"fieldtype"), .atom (.str c!"integer"))]]

/-- As `heapEnv`, with descriptions being consumed. -/
noncomputable def readingEnv : HEnv where
  dflt := heapEnv.dflt
  pre := heapEnv.pre
  take := takeDescriptions env 5

/-- `Tuple` with the same dict twice: `t = {'fieldtype': 'integer'}; {'fieldtype': 'tuple', 'values': [t, t]}`. -/
def sameDict : Heap := [.dict [(.atom (.str c!"fieldtype"), .atom (.str c!"integer"))], .list [.ref 0, .ref 0],
  .dict [(.atom (.str c!"fieldtype"), .atom (.str c!"tuple")), (.atom (.str c!"values"), .ref 1)]]

/-- That, after the outer dict has been popped from, and after both have been. -/
def entered : Heap := [.dict [(.atom (.str c!"fieldtype"), .atom (.str c!"integer"))], .list [.ref 0, .ref 0], .dict [(.atom (.str c!"values"), .ref 1)]]
def emptied : Heap := [.dict [], .list [.ref 0, .ref 0], .dict [(.atom (.str c!"values"), .ref 1)]]

/-- The same with two equal dicts. -/
def separate : Heap := [.dict [(.atom (.str c!"fieldtype"), .atom (.str c!"integer"))],
  .dict [(.atom (.str c!"fieldtype"), .atom (.str c!"integer"))], .list [.ref 0, .ref 1],
  .dict [(.atom (.str c!"fieldtype"), .atom (.str c!"tuple")), (.atom (.str c!"values"), .ref 2)]]

def integerV : Val := .dict [(.str c!"fieldtype", .str c!"integer")]
def tupleV : Val := .dict [(.str c!"fieldtype", .str c!"tuple"), (.str c!"values", .list [integerV, integerV])]

end Ex

/-- The claim C74 was first made of every field.  It is false of Definition: what it is given is emptied. -/
theorem C74_description_taken (n : Nat) :
    ((hProcess Ex.env Ex.readingEnv (n + 1) (.leaf {} (.definition [])) (.ref 0) .inbound true []).run Ex.plainType).2[0]? = some (.dict []) := by
  have hp : OneType Ex.plainType := by
    intro i d hd
    match i with
    | 0 => cases hd; rintro ⟨x, hx⟩; cases hx
    | i + 1 => cases hd
  have hx : Depicts Ex.plainType.cells (.ref 0) Ex.integerV := .dict rfl (.cons (.atom rfl) (.atom rfl) .nil)
  rw [C92_definition (m := 5) rfl hp hx n {} [] [] 0 (by decide)]
  have hd : Described Ex.plainType (fun _ => False) (.ref 0) Ex.integerV [0] :=
    .field (m := []) rfl ⟨_, List.mem_cons_self ..⟩ (.cons (m := []) (m' := []) (.atom rfl) (.atom rfl) .nil)
  obtain ⟨h', hr, hw⟩ := (C92_exact (env := Ex.env) 5 hd (by decide) (fun _ _ h => h)).1 _ rfl
  rw [hr]
  obtain ⟨d, h1, h2⟩ := (hw 0).1 (by decide)
  cases h1
  exact h2

theorem Ex.integer_read (rec : HArgRec) {h : Heap} (h0 : h[0]? = some (.dict [(.atom (.str c!"fieldtype"), .atom (.str c!"integer"))])) :
    ∃ f, (hConstructStep Ex.env rec (.ref 0)).run h = (.ok (.field f), h.set 0 (.dict [])) := by
  refine ⟨.leaf {} (.integer none none), ?_⟩
  have hget : (HM.get 0).run h = (.ok h[0]?, h) := rfl
  have hpop : (popFieldtype 0).run h = (.ok (some (.atom (.str c!"integer"))), h.set 0 (.dict [])) := by
    unfold popFieldtype
    dsimp only
    rw [h0]
    rfl
  have hget' : (HM.get 0).run (h.set 0 (.dict [])) = (.ok (some (.dict [])), h.set 0 (.dict [])) := by
    show (Except.ok _, _) = _
    rw [List.getElem?_set_self (List.getElem?_eq_some_iff.1 h0).1]
  unfold hConstructStep
  dsimp only
  rw [hm_ok hget, h0]
  show ((hReconstructDict Ex.env rec 0) >>= _).run h = _
  refine hm_ok (x := Field.leaf {} (.integer none none)) ?_
  unfold hReconstructDict
  rw [hm_ok hpop]
  unfold hConstructField
  dsimp only
  rw [bind_read (P := fun _ => False) (.atom rfl)]
  show (HM.get 0 >>= _).run _ = _
  rw [hm_ok hget']
  rfl

/-- A field is not read off a description as its value is if the same dict occurs twice: the second time it is no longer a
description.  The value `{'fieldtype': 'tuple', 'values': [t, t]}` describes a field; made with the same dict for both
items it is refused. -/
theorem C92_shared : (∃ f, reconstruct Ex.env 5 Ex.tupleV = .ok f) ∧ Depicts Ex.sameDict.cells (.ref 2) Ex.tupleV ∧
    ∃ h', (hReconstruct Ex.env 5 (.ref 2)).run Ex.sameDict = (.error (.py .typeError), h') := by
  have hint : Depicts Ex.sameDict.cells (.ref 0) Ex.integerV := .dict rfl (.cons (.atom rfl) (.atom rfl) .nil)
  refine ⟨⟨_, rfl⟩, .dict rfl (.cons (.atom rfl) (.atom rfl) (.cons (.atom rfl) (.list rfl (.cons hint (.cons hint .nil))) .nil)), ?_⟩
  obtain ⟨f, hf⟩ := Ex.integer_read (hConstructArg Ex.env 3)
    (h := Ex.entered) rfl
  refine ⟨Ex.emptied, ?_⟩
  unfold hReconstruct
  dsimp only
  rw [hm_ok (m := HM.get 2) rfl]
  show (hReconstructDict Ex.env _ 2).run _ = _
  unfold hReconstructDict
  rw [hm_ok (m := popFieldtype 2) rfl]
  unfold hConstructField
  dsimp only
  rw [bind_read (P := fun _ => False) (.atom rfl)]
  show (HM.get 2 >>= _).run _ = _
  rw [hm_ok (m := HM.get 2) rfl]
  show (hConstructEntries _ _ >>= _).run _ = _
  have hitems : (hConstructItems (hConstructArg Ex.env 4) [.ref 0, .ref 0]).run Ex.entered =
      (.ok [.field f, .ofDict []], Ex.emptied) := by
    unfold hConstructItems
    refine (hm_ok (m := hConstructArg Ex.env 4 (.ref 0)) hf).trans ?_
    rfl
  have hval : (hConstructArg Ex.env 5 (.ref 1)).run Ex.entered =
      (.ok (.ofList [.field f, .ofDict []]), Ex.emptied) := by
    show (HM.get 1 >>= _).run _ = _
    rw [hm_ok (m := HM.get 1) rfl]
    show (hConstructItems _ _ >>= _).run _ = _
    rw [hm_ok hitems]
    rfl
  have hent : (hConstructEntries (hConstructArg Ex.env 5) [(.atom (.str c!"values"), .ref 1)]).run Ex.entered =
      (.ok [(.str c!"values", .ofList [.field f, .ofDict []])], Ex.emptied) := by
    unfold hConstructEntries
    rw [bind_read (P := fun _ => False) (.atom rfl), hm_ok hval]
    rfl
  refine (hm_ok hent).trans ?_
  cases f
  all_goals rfl

/-- With two equal dicts it is accepted, and all three are left without `fieldtype`. -/
example : ∃ f h', (hReconstruct Ex.env 5 (.ref 3)).run Ex.separate = (.ok f, h') ∧ WithoutTypes [3, 0, 1] Ex.separate h' ∧
    Depicts h'.cells (.ref 3) (.dict [(.str c!"values", .list [.dict [], .dict []])]) := by
  have hi : ∀ {i}, Ex.separate[i]? = some (.dict [(.atom (.str c!"fieldtype"), .atom (.str c!"integer"))]) →
      Described Ex.separate (fun _ => False) (.ref i) Ex.integerV [i] := fun h =>
    .field (m := []) h ⟨_, List.mem_cons_self ..⟩ (.cons (m := []) (m' := []) (.atom rfl) (.atom rfl) .nil)
  have hd : Described Ex.separate (fun _ => False) (.ref 3) Ex.tupleV [3, 0, 1] :=
    .field (m := [0, 1]) rfl ⟨_, List.mem_cons_self ..⟩ (.cons (m := []) (m' := [0, 1]) (.atom rfl) (.atom rfl)
      (.cons (m := [0, 1]) (m' := []) (.atom rfl) (.list rfl (.cons (m := [0]) (m' := [1]) (hi rfl) (.cons (m := [1]) (m' := []) (hi rfl) .nil))) .nil))
  have hp : OneType Ex.separate := by
    intro i d hd
    match i with
    | 0 => cases hd; rintro ⟨x, hx⟩; cases hx
    | 1 => cases hd; rintro ⟨x, hx⟩; cases hx
    | 2 => cases hd
    | 3 => cases hd; rintro ⟨x, hx⟩; cases hx; rename_i hx; cases hx
    | i + 4 => cases hd
  obtain ⟨h', hr, hw⟩ := (C92_exact (env := Ex.env) 5 hd (by decide) (fun _ _ h => h)).1 _ rfl
  exact ⟨_, h', hr, hw, C92_left_over hp hd (by decide) (fun _ _ h => h) rfl hr⟩

/-- A Definition field refuses the dict the second time. -/
example (n n' : Nat) : ∃ w, ((hProcess Ex.env Ex.readingEnv (n' + 1) (.leaf {} (.definition [])) (.ref 0) .inbound true []).run
    ((hProcess Ex.env Ex.readingEnv (n + 1) (.leaf {} (.definition [])) (.ref 0) .inbound true []).run Ex.plainType).2).1 =
      .error (mkErr (.leaf {} (.definition [])) .validation (ancOr (.leaf {} (.definition [])) []) w c!"invalid" []) := by
  have hp : OneType Ex.plainType := by
    intro i d hd
    match i with
    | 0 => cases hd; rintro ⟨x, hx⟩; cases hx
    | i + 1 => cases hd
  exact C92_definition_once (m := 5) rfl (fun _ _ => rfl) hp
    (vs := [(.str c!"fieldtype", .str c!"integer")]) (.dict rfl (.cons (.atom rfl) (.atom rfl) .nil)) n n' {} [] []

/-- A Surrogate field empties the description in the entry `__schema__`, and leaves the dict itself alone. -/
example (n : Nat) :
    let h : Heap := [.dict [(.atom (.str c!"fieldtype"), .atom (.str c!"integer"))], .dict [(.atom (.str c!"__schema__"), .ref 0)]]
    let h' := ((hProcess Ex.env Ex.readingEnv (n + 1) (.leaf {} (.surrogate [])) (.ref 1) .inbound true []).run h).2
    h'[0]? = some (.dict []) ∧ h'[1]? = h[1]? := by
  intro h h'
  have hp : OneType h := by
    intro i d hd
    match i with
    | 0 => cases hd; rintro ⟨x, hx⟩; cases hx
    | 1 => cases hd; rintro ⟨x, hx⟩; cases hx; rename_i hx; cases hx
    | i + 2 => cases hd
  have hx : Depicts h.cells (.ref 1) (.dict [(.str c!"__schema__", Ex.integerV)]) :=
    .dict rfl (.cons (.atom rfl) (.dict rfl (.cons (.atom rfl) (.atom rfl) .nil)) .nil)
  have key := C92_surrogate (env := Ex.env) (E := Ex.readingEnv) (m := 5) (h := h) (a := 1) (x := .ref 0) rfl hp rfl (List.mem_cons_self ..)
    (fun y hy => by cases hy; rfl; rename_i hy; cases hy) hx n {} [] []
  have hd : Described h (fun _ => False) (.ref 0) Ex.integerV [0] :=
    .field (m := []) rfl ⟨_, List.mem_cons_self ..⟩ (.cons (m := []) (m' := []) (.atom rfl) (.atom rfl) .nil)
  obtain ⟨h'', hr, hw⟩ := (C92_exact (env := Ex.env) 5 hd (by decide) (fun _ _ h => h)).1 _ rfl
  constructor
  · rw [key 0 (Nat.lt_succ_of_lt Nat.zero_lt_one), hr]
    obtain ⟨d, h1, h2⟩ := (hw 0).1 (by decide)
    cases h1
    exact h2
  · rw [key 1 (Nat.lt_succ_self 1), hr]
    exact (hw 1).2 (by decide)

end Scheme
