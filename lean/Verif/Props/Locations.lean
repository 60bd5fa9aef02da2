import Verif.Lemmas.Blame
import Verif.Lemmas.DictSet
import Verif.Props.Conformance
import Verif.Spec.Located

/-! C08: error locations. -/

namespace Scheme

section
variable {env : Env} {ph : Phase} {ser : Bool}

theorem own_mkErr {f : Field} {cls : ErrCls} {anc : List Str} {v : Val} {t : Str} {ps : List (Str × Str)} {e : SErr}
    (h : mkErr f cls anc v t ps = .structural e) : Own anc e := by
  unfold mkErr at h
  split at h
  · cases h
  · split at h
    · cases h
    · cases h; exact ⟨rfl, rfl, _, _, _, rfl⟩

theorem isNull_own {f : Field} {v : Val} {anc : List Str} {e : SErr} (h : isNull f v anc = .error (.structural e)) :
    Own anc e := by
  unfold isNull at h
  repeat' split at h
  all_goals first | (cases h; done) | exact own_mkErr (Except.error.inj h)

theorem unserialize_located {c : Common} {k : Leaf} {v : Val} {anc : List Str} {e : SErr} (hph : ph = .inbound)
    (hser : ser = true) (h : unserializeLeaf env (.leaf c k) k v anc = .error (.structural e)) :
    Located env ph ser (.leaf c k) anc e := by
  unfold unserializeLeaf at h
  cases k <;> simp only at h <;> repeat' split at h
  all_goals first
    | (cases h; done)
    | exact .own (own_mkErr (Except.error.inj h))
    | exact .surrogateIn hph hser h

theorem preprocess_own {f : Field} {c : Common} {k : Leaf} {v : Val} {anc : List Str} {e : SErr}
    (h : preprocess env f c k v anc = .error (.structural e)) : Own anc e := by
  unfold preprocess at h
  repeat' split at h
  all_goals first | (cases h; done) | exact own_mkErr (Except.error.inj h)

theorem validateText_own {f : Field} {mn mx : Option Nat} {pat : Str → Bool} {s : Str} {anc : List Str} {e : SErr}
    (h : validateText f mn mx pat s anc = .error (.structural e)) : Own anc e := by
  unfold validateText at h
  simp only at h
  repeat' split at h
  all_goals first | (cases h; done) | exact own_mkErr (Except.error.inj h)

theorem validate_own {f : Field} {k : Leaf} {v : Val} {anc : List Str} {e : SErr}
    (h : validateLeaf env f k v anc = .error (.structural e)) : Own anc e := by
  unfold validateLeaf at h
  cases k <;> simp only at h <;> repeat' split at h
  all_goals first | (cases h; done) | exact own_mkErr (Except.error.inj h) | exact validateText_own h


theorem serialize_located {c : Common} {k : Leaf} {v : Val} {anc : List Str} {e : SErr} (hph : ph = .outbound)
    (hser : ser = true) (h : serializeLeaf env (.leaf c k) k v = .error (.structural e)) :
    Located env ph ser (.leaf c k) anc e := by
  unfold serializeLeaf at h
  cases k <;> simp only at h
  case definition =>
    split at h
    · exact .describe hph hser h
    · cases h
  case object =>
    repeat' split at h
    all_goals first | (cases h; done) | exact .object hph hser (own_mkErr (Except.error.inj h))
  case surrogate =>
    split at h
    · exact .surrogateOut hph hser h
    · cases h
  all_goals
    repeat' split at h
    all_goals (cases h; done)

theorem leaf_located {c : Common} {k : Leaf} {v : Val} {anc : List Str} {e : SErr}
    (h : processLeaf env c k v ph ser anc = .error (.structural e)) :
    Located env ph ser (.leaf c k) (ancOr (.leaf c k) anc) e := by
  rw [processLeaf_eq, except_bind_eq_error] at h
  rcases h with h | ⟨b, hb, h⟩
  · exact .own (isNull_own h)
  · cases b with
    | true => simp at h
    | false =>
      simp only [Bool.false_eq_true, if_false, except_bind_eq_error] at h
      rcases h with h | ⟨v1, h1, h⟩
      · unfold decodeStep at h
        split at h
        · rename_i hc; exact unserialize_located hc.2 hc.1 h
        · simp at h
      · rcases h with h | ⟨v2, h2, h⟩
        · exact .own (preprocess_own h)
        · rcases h with h | ⟨v2', h2', h⟩
          · unfold checkConst at h
            split at h
            · exact .own (own_mkErr (Except.error.inj h))
            · cases h
          · rcases h with h | ⟨v3, h3, h⟩
            · exact .own (validate_own h)
            · unfold encodeStep at h
              split at h
              · rename_i hc
                unfold serOut at h
                split at h
                · exact .own (own_mkErr (Except.error.inj h))
                · exact serialize_located hc.2 hc.1 h
              · cases h

end

/-- The statement for one level of processing. -/
def Locates (env : Env) (rec : Proc) : Prop :=
  (∀ f v ph ser anc e, rec f v ph ser anc = .error (.structural e) → Located env ph ser f (ancOr f anc) e) ∧
  (∀ f v ph ser anc x, rec f v ph ser anc = .ok x → ∃ m w, process env m f w ph ser anc = .ok x)

theorem ancOr_append (f : Field) (anc : List Str) (s : Str) : ancOr f (anc ++ [s]) = anc ++ [s] := by
  cases anc <;> simp [ancOr]

section
variable {env : Env} {rec : Proc} {ph : Phase} {ser : Bool}

theorem kept_of {f g : Field} {v : Val} {anc : List Str} {s : Str} (hr : Locates env rec) (hg : resolve env f = some g)
    (ht : tame (callChild env rec f v ph ser (anc ++ [s]))) :
    Kept env ph ser g (anc ++ [s]) (outcomeVal (callChild env rec f v ph ser (anc ++ [s]))) := by
  unfold callChild at *
  rw [hg] at *
  simp only at *
  cases h : rec g v ph ser (anc ++ [s]) with
  | ok x =>
    obtain ⟨m, w, hm⟩ := hr.2 _ _ _ _ _ _ h
    exact .good hm
  | error e =>
    cases e with
    | structural e =>
      have := hr.1 _ _ _ _ _ _ h
      rw [ancOr_append] at this
      exact .bad this
    | _ => rw [h] at ht; exact ht.elim

theorem tame_resolves {f : Field} {v : Val} {anc : List Str} (ht : tame (callChild env rec f v ph ser anc)) :
    ∃ g, resolve env f = some g := by
  unfold callChild at ht
  split at ht
  · exact ht.elim
  · exact ⟨_, ‹_›⟩

theorem rawPre_raw {c : Common} {v : Val} {e : SErr} (h : rawPre env c v = .error (.structural e)) : False := by
  unfold rawPre at h
  repeat' split at h
  all_goals (cases h; done)

theorem collect_raw {c : Except Exn Val} {e : SErr} (h : collect c = .error (.structural e)) : False := by
  cases c with
  | ok x => cases h
  | error e => cases e <;> cases h

theorem collectAll_raw {cs : List (Except Exn Val)} {e : SErr} (h : collectAll cs = .error (.structural e)) : False := by
  induction cs with
  | nil => cases h
  | cons c r ih =>
    rw [collectAll, except_bind_eq_error] at h
    rcases h with h | ⟨a, _, h⟩
    · exact collect_raw h
    · rw [except_bind_eq_error] at h
      rcases h with h | ⟨b, _, h⟩
      · exact ih h
      · cases h

theorem sequence_located {c : Common} {item : Field} {mn mx : Option Nat} {u : Bool} {v : Val} {anc : List Str} {e : SErr}
    (hr : Locates env rec) (h : processSequence env rec c item mn mx u v ph ser anc = .error (.structural e)) :
    Located env ph ser (.sequence c item mn mx u) (ancOr (.sequence c item mn mx u) anc) e := by
  unfold processSequence at h
  rw [except_bind_eq_error] at h
  rcases h with h | ⟨b, _, h⟩
  · exact .own (isNull_own h)
  split at h
  · cases h
  split at h
  · rw [except_bind_eq_error] at h
    rcases h with h | ⟨v1, _, h⟩
    · exact (rawPre_raw h).elim
    split at h
    · next l _ =>
      simp only [except_throw, except_pure] at h
      split at h
      · exact .own (own_mkErr (Except.error.inj h))
      split at h
      · exact .own (own_mkErr (Except.error.inj h))
      rw [except_bind_eq_error] at h
      rw [seqLoop_eq] at h
      rcases h with h | ⟨r, hl, h⟩
      · exact (collectAll_raw h).elim
      rw [collectAll_eq_ok] at hl
      obtain ⟨ht, rfl⟩ := hl
      split at h
      · rename_i hbad
        cases h
        have hg : ∃ g, resolve env item = some g := by
          cases l with
          | nil => simp at hbad
          | cons a r => exact tame_resolves (ht _ (by rw [List.mapIdx_cons]; exact List.mem_cons_self ..))
        obtain ⟨g, hg⟩ := hg
        refine .sequence hg ?_
        intro i x hx
        rw [List.getElem?_map, List.getElem?_mapIdx] at hx
        cases hi : l[i]? with
        | none => simp [hi] at hx
        | some a =>
          simp only [hi, Option.map_some, Option.some.injEq, Nat.zero_add] at hx
          subst hx
          refine kept_of hr hg (ht _ ?_)
          rw [List.mem_mapIdx]
          obtain ⟨hlt, hia⟩ := List.getElem?_eq_some_iff.1 hi
          exact ⟨i, hlt, by rw [hia, Nat.zero_add]⟩
      · repeat' split at h
        all_goals first | (cases h; done) | exact .own (own_mkErr (Except.error.inj h))
    · cases h
  · exact .own (own_mkErr (Except.error.inj h))

theorem resolve_all {env : Env} {fs : List Field} (h : ∀ f ∈ fs, ∃ g, resolve env f = some g) :
    ∃ gs : List Field, fs.map (resolve env) = gs.map some := by
  induction fs with
  | nil => exact ⟨[], rfl⟩
  | cons f r ih =>
    obtain ⟨g, hg⟩ := h f (List.mem_cons_self ..)
    obtain ⟨gs, hgs⟩ := ih fun f hf => h f (List.mem_cons_of_mem _ hf)
    exact ⟨g :: gs, by simp [hg, hgs]⟩

theorem tuple_located {c : Common} {fs : List Field} {v : Val} {anc : List Str} {e : SErr}
    (hr : Locates env rec) (h : processTuple env rec c fs v ph ser anc = .error (.structural e)) :
    Located env ph ser (.tuple c fs) (ancOr (.tuple c fs) anc) e := by
  unfold processTuple at h
  rw [except_bind_eq_error] at h
  rcases h with h | ⟨b, _, h⟩
  · exact .own (isNull_own h)
  split at h
  · cases h
  have body : ∀ (i : Val) (l : List Val),
      (if l.length ≠ fs.length then .error (mkErr (.tuple c fs) .validation (ancOr (.tuple c fs) anc) i c!"length" [(c!"length", natStr fs.length)])
        else tupLoop env rec ph ser (ancOr (.tuple c fs) anc) 0 fs l >>= fun r => if r.2 then .ok (.tuple r.1)
          else .error (.structural ⟨.validation, ancOr (.tuple c fs) anc, [], .list r.1, i⟩) : Except Exn Val) =
        .error (.structural e) → Located env ph ser (.tuple c fs) (ancOr (.tuple c fs) anc) e := by
    intro i l h
    split at h
    · exact .own (own_mkErr (Except.error.inj h))
    · rename_i hlen
      have hlen : l.length = fs.length := by simpa using hlen
      rw [except_bind_eq_error, tupLoop_eq] at h
      rcases h with h | ⟨r, hl, h⟩
      · exact (collectAll_raw h).elim
      rw [collectAll_eq_ok] at hl
      obtain ⟨ht, rfl⟩ := hl
      split at h
      · cases h
      · cases h
        have hres : ∀ f ∈ fs, ∃ g, resolve env f = some g := by
          intro f hf
          obtain ⟨i, hi⟩ := List.getElem?_of_mem hf
          obtain ⟨hlt, hif⟩ := List.getElem?_eq_some_iff.1 hi
          have hlt' : i < (fs.zip l).length := by rw [List.length_zip, hlen, Nat.min_self]; exact hlt
          have := tame_resolves (ht _ (List.mem_mapIdx.mpr ⟨i, hlt', rfl⟩))
          rw [List.getElem_zip] at this
          rwa [hif] at this
        obtain ⟨gs, hgs⟩ := resolve_all hres
        refine .tuple (gs := gs) (by simp [hlen]) hgs ?_
        intro i x g hx hg'
        obtain ⟨f, hf, hg⟩ : ∃ f, fs[i]? = some f ∧ resolve env f = some g := by
          have := congrArg (·[i]?) hgs
          simp only [List.getElem?_map, hg', Option.map_some] at this
          cases hf : fs[i]? with
          | none => rw [hf] at this; cases this
          | some f => rw [hf] at this; exact ⟨f, rfl, Option.some.inj this⟩
        rw [List.getElem?_map, List.getElem?_mapIdx] at hx
        cases hi : (fs.zip l)[i]? with
        | none => simp [hi] at hx
        | some a =>
          simp only [hi, Option.map_some, Option.some.injEq, Nat.zero_add] at hx
          subst hx
          have ha : a.1 = f := by
            rw [List.getElem?_zip_eq_some] at hi
            rw [hf] at hi
            exact (Option.some.inj hi.1).symm
          refine kept_of hr (by rw [ha]; exact hg) (ht _ ?_)
          rw [List.mem_mapIdx]
          obtain ⟨hlt, hia⟩ := List.getElem?_eq_some_iff.1 hi
          exact ⟨i, hlt, by rw [hia, Nat.zero_add]⟩
  have go : (rawPre env c v >>= fun i => match i with
        | .list l => (if l.length ≠ fs.length then .error (mkErr (.tuple c fs) .validation (ancOr (.tuple c fs) anc) (.list l) c!"length" [(c!"length", natStr fs.length)])
            else tupLoop env rec ph ser (ancOr (.tuple c fs) anc) 0 fs l >>= fun r => if r.2 then .ok (.tuple r.1)
              else .error (.structural ⟨.validation, ancOr (.tuple c fs) anc, [], .list r.1, .list l⟩) : Except Exn Val)
        | .tuple l => (if l.length ≠ fs.length then .error (mkErr (.tuple c fs) .validation (ancOr (.tuple c fs) anc) (.tuple l) c!"length" [(c!"length", natStr fs.length)])
            else tupLoop env rec ph ser (ancOr (.tuple c fs) anc) 0 fs l >>= fun r => if r.2 then .ok (.tuple r.1)
              else .error (.structural ⟨.validation, ancOr (.tuple c fs) anc, [], .list r.1, .tuple l⟩) : Except Exn Val)
        | _ => .error (.py .typeError)) = .error (.structural e) →
      Located env ph ser (.tuple c fs) (ancOr (.tuple c fs) anc) e := by
    intro h
    rw [except_bind_eq_error] at h
    rcases h with h | ⟨i, hi, h⟩
    · exact (rawPre_raw h).elim
    · split at h
      · exact body _ _ h
      · exact body _ _ h
      · cases h
  cases v with
  | list l => exact go h
  | tuple l => exact go h
  | _ => exact .own (own_mkErr (Except.error.inj h))

theorem mapKey_own {f : Field} {whole : Val} {key : Option Field} {anc : List Str} {k : Val} {e : SErr}
    (h : mapKey env rec f whole key ph ser anc k = .error (.structural e)) : Own anc e := by
  unfold mapKey at h
  split at h
  · rw [except_bind_eq_error] at h
    rcases h with h | ⟨s, _, h⟩
    · unfold keyStep at h
      split at h <;> cases h
    · split at h <;> first | (cases h; done) | exact own_mkErr (Except.error.inj h) | skip
      next hx _ => cases h; exact (hx _ rfl).elim
  · split at h
    · cases h
    · exact own_mkErr (Except.error.inj h)

theorem MapEntry.rekey {value : Field} {req : List Val} {anc : List Str} {k k2 x : Val}
    (hh : hashable k = true) (h : MapEntry env ph ser value req anc k x) (he : pyEq k k2 = true) :
    MapEntry env ph ser value req anc k2 x := by
  cases h with
  | required hm hk ho =>
    refine .required hm (.inr ?_) ho
    rcases hk with rfl | hk
    · exact he
    · exact pyEq_trans hk he
  | entry hk hs hg hx =>
    refine .entry (.inr ?_) hs hg hx
    rcases hk with rfl | hk
    · exact he
    · exact pyEq_trans hk he

theorem MapEntry.set {value : Field} {req : List Val} {anc : List Str} {d : List (Val × Val)} {k x : Val}
    (hd : ∀ k x, (k, x) ∈ d → MapEntry env ph ser value req anc k x) (hh : hashable k = true)
    (h : MapEntry env ph ser value req anc k x) :
    ∀ k' x', (k', x') ∈ dictSet d k x → MapEntry env ph ser value req anc k' x' := by
  intro k' x' hm
  rcases mem_dictSet hm with hm | ⟨h1, h2 | ⟨h2, _⟩⟩
  · exact hd _ _ hm
  · cases h1; cases h2; exact h
  · cases h1; exact h.rekey hh h2

theorem mapLoop_located {f : Field} {whole : Val} {key : Option Field} {value : Field} {req : List Val} {anc : List Str}
    (hr : Locates env rec) (d acc : List (Val × Val)) (b : Bool)
    (hd : ∀ k x, (k, x) ∈ acc → MapEntry env ph ser value req anc k x) :
    (∀ e, mapLoop env rec f whole key value ph ser anc d acc b = .error (.structural e) → Own anc e) ∧
    (∀ r, mapLoop env rec f whole key value ph ser anc d acc b = .ok r →
      ∀ k x, (k, x) ∈ r.1 → MapEntry env ph ser value req anc k x) := by
  induction d generalizing acc b with
  | nil => exact ⟨fun e h => (by cases h), fun r h => (by cases h; exact hd)⟩
  | cons a r ih =>
    obtain ⟨k, v⟩ := a
    simp only [mapLoop]
    cases hk : mapKey env rec f whole key ph ser anc k with
    | error e' =>
      refine ⟨fun e h => ?_, fun r h => (by cases h)⟩
      cases h; exact mapKey_own hk
    | ok k' =>
      simp only [except_bind_ok]
      cases hs : keyStep env k' with
      | error e' =>
        refine ⟨fun e h => ?_, fun r h => (by cases h)⟩
        cases h
        unfold keyStep at hs
        split at hs <;> cases hs
      | ok step =>
        simp only [except_bind_ok]
        cases hc : collect (callChild env rec value v ph ser (anc ++ [step])) with
        | error e' =>
          refine ⟨fun e h => ?_, fun r h => (by cases h)⟩
          cases h
          exact (collect_raw hc).elim
        | ok x =>
          simp only [except_bind_ok]
          cases hh : hashable k' with
          | false => exact ⟨fun e h => (by cases h), fun r h => (by cases h)⟩
          | true =>
            simp only [if_true]
            refine ih _ _ (MapEntry.set hd hh ?_)
            obtain ⟨ht, rfl⟩ := collect_eq_ok.1 hc
            obtain ⟨g, hg⟩ := tame_resolves ht
            exact .entry (.inl rfl) hs hg (kept_of hr hg ht)

theorem mapRequired_located {f : Field} {value : Field} {req : List Val} {anc : List Str}
    (l : List Val) (hl : ∀ k ∈ l, k ∈ req) (acc : List (Val × Val)) (b : Bool)
    (hd : ∀ k x, (k, x) ∈ acc → MapEntry env ph ser value req anc k x) :
    (∀ e, mapRequired env f anc l acc b = .error (.structural e) → Own anc e) ∧
    (∀ r, mapRequired env f anc l acc b = .ok r → ∀ k x, (k, x) ∈ r.1 → MapEntry env ph ser value req anc k x) := by
  induction l generalizing acc b with
  | nil => exact ⟨fun e h => (by cases h), fun r h => (by cases h; exact hd)⟩
  | cons k r ih =>
    have ih := ih (fun x hx => hl x (List.mem_cons_of_mem _ hx))
    simp only [mapRequired]
    cases hh : hashable k with
    | false => exact ⟨fun e h => (by cases h), fun r h => (by cases h)⟩
    | true =>
      simp only [if_true]
      split
      · exact ih _ _ hd
      · split
        · rename_i e he
          exact ih _ _ (MapEntry.set hd hh (.required (hl k (List.mem_cons_self ..)) (.inl rfl) (own_mkErr he)))
        · rename_i hx
          exact ⟨fun e h => (hx e (Except.error.inj h)).elim, fun r h => (by cases h)⟩

theorem map_located {c : Common} {key : Option Field} {value : Field} {req : List Val} {v : Val} {anc : List Str} {e : SErr}
    (hr : Locates env rec) (h : processMap env rec c key value req v ph ser anc = .error (.structural e)) :
    Located env ph ser (.map c key value req) (ancOr (.map c key value req) anc) e := by
  unfold processMap at h
  rw [except_bind_eq_error] at h
  rcases h with h | ⟨b, _, h⟩
  · exact .own (isNull_own h)
  split at h
  · cases h
  split at h
  · rw [except_bind_eq_error] at h
    rcases h with h | ⟨v1, _, h⟩
    · exact (rawPre_raw h).elim
    split at h
    · next d _ =>
      have hl := mapLoop_located (ph := ph) (ser := ser) (f := .map c key value req) (whole := .dict d) (key := key)
        (value := value) (req := req) (anc := ancOr (.map c key value req) anc) hr d [] true (by simp)
      rw [except_bind_eq_error] at h
      rcases h with h | ⟨r, hr1, h⟩
      · exact .own (hl.1 _ h)
      · have hl2 := mapRequired_located (f := .map c key value req) (req := req) req (fun _ hk => hk) r.1 r.2
          (hl.2 _ hr1)
        rw [except_bind_eq_error] at h
        rcases h with h | ⟨r2, hr2, h⟩
        · exact .own (hl2.1 _ h)
        · split at h
          · cases h
          · cases h
            exact .map (hl2.2 _ hr2)
    · cases h
  · exact .own (own_mkErr (Except.error.inj h))

theorem union_located {c : Common} {fs : List Field} {v : Val} {anc : List Str} {e : SErr}
    (hr : Locates env rec) (h : processUnion env rec c fs v ph ser anc = .error (.structural e)) :
    Located env ph ser (.union c fs) (ancOr (.union c fs) anc) e := by
  unfold processUnion at h
  rw [except_bind_eq_error] at h
  rcases h with h | ⟨b, _, h⟩
  · exact .own (isNull_own h)
  split at h
  · cases h
  split at h
  · rename_i r hl
    subst h
    have : ∀ l : List Field, unionLoop env rec v ph ser (ancOr (.union c fs) anc) l = some (.error (.structural e)) →
        ∃ f ∈ l, callChild env rec f v ph ser (ancOr (.union c fs) anc) = .error (.structural e) := by
      intro l hl
      induction l with
      | nil => cases hl
      | cons f r ih =>
        simp only [unionLoop] at hl
        split at hl
        · split at hl
          · obtain ⟨f', hf, h⟩ := ih hl
            exact ⟨f', List.mem_cons_of_mem _ hf, h⟩
          · rename_i he _
            exact ⟨f, List.mem_cons_self .., by rw [he]; exact Option.some.inj hl⟩
        · exact ⟨f, List.mem_cons_self .., Option.some.inj hl⟩
    obtain ⟨f, hf, h⟩ := this _ hl
    unfold callChild at h
    split at h
    · cases h
    · rename_i g hg
      have hx := hr.1 _ _ _ _ _ _ h
      have : ancOr g (ancOr (.union c fs) anc) = ancOr (.union c fs) anc := by
        cases anc <;> simp [ancOr]
      rw [this] at hx
      exact .union hf hg hx
  · exact .own (own_mkErr (Except.error.inj h))

/-- What the key loop of a structure keeps true. -/
def MembersOk (env : Env) (ph : Phase) (ser : Bool) (defn : List (Str × Field)) (order anc : List Str) (st : SState) : Prop :=
  ∀ k x, (k, x) ∈ st.out → MemberEntry env ph ser defn order anc k x

theorem MembersOk.set {defn : List (Str × Field)} {order anc : List Str} {out : List (Val × Val)} {name : Str} {x : Val}
    (hd : ∀ k x, (k, x) ∈ out → MemberEntry env ph ser defn order anc k x)
    (h : MemberEntry env ph ser defn order anc (.str name) x) :
    ∀ k' x', (k', x') ∈ dictSet out (.str name) x → MemberEntry env ph ser defn order anc k' x' := by
  intro k' x' hm
  rcases mem_dictSet hm with hm | ⟨h1, h2 | ⟨h2, _⟩⟩
  · exact hd _ _ hm
  · cases h1; cases h2; exact h
  · simp only at h1 h2
    rw [pyEq_str_left] at h2
    subst h1; subst h2; exact h

theorem structField_located {defn : List (Str × Field)} {order anc : List Str} {name : Str} {field : Field} {fv : Val}
    {st : SState} (hr : Locates env rec) (hn : name ∈ order) (hl : defn.lookup name = some field)
    (hd : MembersOk env ph ser defn order anc st) :
    (∀ e, structField env rec ph ser anc name field fv st ≠ .error (.structural e)) ∧
    (∀ st', structField env rec ph ser anc name field fv st = .ok st' → MembersOk env ph ser defn order anc st' ∧
      st'.names = st.names) := by
  unfold structField
  split
  · exact ⟨fun e h => (by cases h), fun r h => (by cases h)⟩
  · rename_i g hg
    split
    · exact ⟨fun e h => (by cases h), fun r h => (by cases h)⟩
    · rename_i cg hcg
      split
      · exact ⟨fun e h => (by cases h), fun r h => (by cases h; exact ⟨hd, rfl⟩)⟩
      · have hcall : rec g fv ph ser (anc ++ ['.' :: name]) = callChild env rec field fv ph ser (anc ++ ['.' :: name]) := by
          unfold callChild; rw [hg]
        rw [hcall]
        cases hc : collect (callChild env rec field fv ph ser (anc ++ ['.' :: name])) with
        | error e' =>
          refine ⟨fun e h => ?_, fun r h => (by cases h)⟩
          cases h
          exact (collect_raw hc).elim
        | ok x =>
          refine ⟨fun e h => (by cases h), fun st' h => ?_⟩
          cases h
          obtain ⟨ht, rfl⟩ := collect_eq_ok.1 hc
          exact ⟨MembersOk.set hd (.member hn ⟨field, hl, hg, hcg⟩ (kept_of hr hg ht)), rfl⟩

theorem structStep_located {f : Field} {value : List (Val × Val)} {defn : List (Str × Field)} {part : Bool}
    {order anc : List Str} {name : Str} {st : SState} (hr : Locates env rec) (hn : name ∈ order)
    (hd : MembersOk env ph ser defn order anc st) :
    (∀ e, structStep env rec f value defn ph ser part anc name st = .error (.structural e) → Own anc e) ∧
    (∀ st', structStep env rec f value defn ph ser part anc name st = .ok st' → MembersOk env ph ser defn order anc st' ∧
      ∀ k, k ∈ st'.names → k ∈ st.names ∧ k ≠ .str name) := by
  have hdrop : ∀ {st' : SState}, st'.names = st.names → pyIn (.str name) st.names ≠ true →
      ∀ k, k ∈ st'.names → k ∈ st.names ∧ k ≠ .str name := by
    intro st' hst hp k hk
    rw [hst] at hk
    refine ⟨hk, ?_⟩
    rintro rfl
    exact hp (by simp only [pyIn, List.any_eq_true]; exact ⟨_, hk, by rw [pyEq_str_left]⟩)
  unfold structStep
  split
  · exact ⟨fun e h => (by cases h), fun r h => (by cases h)⟩
  · rename_i field hl
    split
    · have := structField_located (ph := ph) (ser := ser) (order := order) (anc := anc)
        (fv := ((dictGet value (.str name)).getD .none))
        (st := { st with names := st.names.filter fun k => !pyEq (.str name) k }) hr hn hl hd
      refine ⟨fun e h => (this.1 e h).elim, fun st' h => ?_⟩
      obtain ⟨h1, h2⟩ := this.2 st' h
      refine ⟨h1, fun k hk => ?_⟩
      rw [h2, List.mem_filter] at hk
      refine ⟨hk.1, ?_⟩
      rintro rfl
      have := hk.2
      rw [pyEq_str_str] at this
      simp at this
    · rename_i hp
      split
      · exact ⟨fun e h => (by cases h), fun r h => (by cases h; exact ⟨hd, hdrop rfl hp⟩)⟩
      · split
        · exact ⟨fun e h => (by cases h), fun r h => (by cases h)⟩
        · rename_i cg hcg
          split
          · have := structField_located (ph := ph) (ser := ser) (order := order) (anc := anc) (fv := cg.default) (st := st) hr hn hl hd
            refine ⟨fun e h => (this.1 e h).elim, fun st' h => ?_⟩
            obtain ⟨h1, h2⟩ := this.2 st' h
            exact ⟨h1, hdrop h2 hp⟩
          · split
            · rename_i hreq
              split
              · rename_i e he
                refine ⟨fun e h => (by cases h), fun st' h => ?_⟩
                cases h
                rw [Option.bind_eq_some_iff] at hcg
                obtain ⟨g, hg, hcg⟩ := hcg
                exact ⟨MembersOk.set hd (.required hn ⟨field, hl, hg, hcg⟩ hreq (own_mkErr he)), hdrop rfl hp⟩
              · rename_i hx
                exact ⟨fun e h => (hx e (Except.error.inj h)).elim, fun r h => (by cases h)⟩
            · exact ⟨fun e h => (by cases h), fun r h => (by cases h; exact ⟨hd, hdrop rfl hp⟩)⟩

theorem structLoop_located {f : Field} {value : List (Val × Val)} {defn : List (Str × Field)} {part : Bool}
    {order anc : List Str} (hr : Locates env rec) (l : List Str) (hl : ∀ n ∈ l, n ∈ order) (st : SState)
    (hd : MembersOk env ph ser defn order anc st) :
    (∀ e, structLoop env rec f value defn ph ser part anc l st = .error (.structural e) → Own anc e) ∧
    (∀ st', structLoop env rec f value defn ph ser part anc l st = .ok st' → MembersOk env ph ser defn order anc st' ∧
      ∀ k, k ∈ st'.names → k ∈ st.names ∧ ∀ n ∈ l, k ≠ .str n) := by
  induction l generalizing st with
  | nil => exact ⟨fun e h => (by cases h), fun r h => (by cases h; exact ⟨hd, fun k hk => ⟨hk, by simp⟩⟩)⟩
  | cons n r ih =>
    have hs := structStep_located (f := f) (value := value) (part := part) hr (hl n (List.mem_cons_self ..)) hd
    simp only [structLoop]
    cases h1 : structStep env rec f value defn ph ser part anc n st with
    | error e' => exact ⟨fun e h => hs.1 e (by cases h; exact h1), fun r h => (by cases h)⟩
    | ok st1 =>
      simp only [except_bind_ok]
      obtain ⟨ha, hb⟩ := hs.2 st1 h1
      have ih := ih (fun x hx => hl x (List.mem_cons_of_mem _ hx)) st1 ha
      refine ⟨ih.1, fun st' h => ?_⟩
      obtain ⟨h2, h3⟩ := ih.2 st' h
      refine ⟨h2, fun k hk => ?_⟩
      obtain ⟨h4, h5⟩ := h3 k hk
      obtain ⟨h6, h7⟩ := hb k h4
      refine ⟨h6, fun m hm => ?_⟩
      rcases List.mem_cons.1 hm with rfl | hm
      · exact h7
      · exact h5 m hm

theorem structUnknown_located {f : Field} {defn : List (Str × Field)} {order anc : List Str} (l : List Val)
    (hl : ∀ k ∈ l, ∀ n ∈ order, k ≠ .str n) (st : SState) (hd : MembersOk env ph ser defn order anc st) :
    (∀ e, structUnknown env f anc l st = .error (.structural e) → Own anc e) ∧
    (∀ st', structUnknown env f anc l st = .ok st' → MembersOk env ph ser defn order anc st') := by
  induction l generalizing st with
  | nil => exact ⟨fun e h => (by cases h), fun r h => (by cases h; exact hd)⟩
  | cons k r ih =>
    simp only [structUnknown]
    split
    · rename_i e he
      refine ih (fun x hx => hl x (List.mem_cons_of_mem _ hx)) _ ?_
      intro k' x' hm
      rcases mem_dictSet hm with hm | ⟨h1, h2 | ⟨h2, x, h3⟩⟩
      · exact hd _ _ hm
      · simp only at h1 h2
        subst h1; subst h2
        exact .unknown (hl _ (List.mem_cons_self ..)) (own_mkErr he)
      · simp only at h1 h2 h3
        subst h1
        refine .unknown (fun n hn hk => ?_) (own_mkErr he)
        rw [hk] at h2
        exact hl k (List.mem_cons_self ..) n hn (pyEq_str_right.1 h2)
    · rename_i hx
      exact ⟨fun e h => (hx e (Except.error.inj h)).elim, fun r h => (by cases h)⟩

theorem structBody_located {f : Field} {value : List (Val × Val)} {defn : List (Str × Field)} {part strict : Bool}
    {order anc : List Str} {e : SErr} (hr : Locates env rec)
    (h : structBody env rec f strict order defn value ph ser part anc = .error (.structural e)) :
    Own anc e ∨ ∃ d v, (∀ k x, (k, x) ∈ d → MemberEntry env ph ser defn order anc k x) ∧
      e = ⟨.validation, anc, [], .dict d, v⟩ := by
  have hl := structLoop_located (f := f) (ph := ph) (ser := ser) (value := value) (defn := defn) (part := part) (anc := anc) hr order
    (fun _ hn => hn) { names := value.map (·.1), out := [], valid := true } (by intro k x h; cases h)
  unfold structBody at h
  rw [except_bind_eq_error] at h
  rcases h with h | ⟨st, hs, h⟩
  · exact .inl (hl.1 _ h)
  obtain ⟨h1, h2⟩ := hl.2 _ hs
  have fin : ∀ st', MembersOk env ph ser defn order anc st' →
      (if st'.valid = true then .ok (.dict st'.out)
        else .error (.structural ⟨.validation, anc, [], .dict st'.out, .dict value⟩) : Except Exn Val) =
        .error (.structural e) → ∃ d v, (∀ k x, (k, x) ∈ d → MemberEntry env ph ser defn order anc k x) ∧
      e = ⟨.validation, anc, [], .dict d, v⟩ := by
    intro st' hm h
    split at h
    · cases h
    · cases h; exact ⟨_, _, hm, rfl⟩
  cases strict with
  | false => exact .inr (fin st h1 h)
  | true =>
    have h : (structUnknown env f anc st.names st >>= fun st' => if st'.valid = true then .ok (.dict st'.out)
      else .error (.structural ⟨.validation, anc, [], .dict st'.out, .dict value⟩) : Except Exn Val) =
        .error (.structural e) := h
    have hu := structUnknown_located (f := f) (ph := ph) (ser := ser) st.names (fun k hk => (h2 k hk).2) st h1
    rw [except_bind_eq_error] at h
    rcases h with h | ⟨st', hs', h⟩
    · exact .inl (hu.1 _ h)
    · exact .inr (fin st' (hu.2 _ hs') h)

theorem structPre_own {f : Field} {c : Common} {v : Val} {anc : List Str} {e : SErr}
    (h : structPre env f c v anc = .error (.structural e)) : Own anc e := by
  unfold structPre at h
  repeat' split at h
  all_goals first | (cases h; done) | exact own_mkErr (Except.error.inj h)

theorem structure_located {c : Common} {defn : List (Str × Field)} {strict part : Bool} {ko : List Str} {v : Val}
    {anc : List Str} {e : SErr} (hr : Locates env rec)
    (h : processStructure env rec c defn strict ko part v ph ser anc = .error (.structural e)) :
    Located env ph ser (.structure c defn strict ko) (ancOr (.structure c defn strict ko) anc) e := by
  unfold processStructure at h
  rw [except_bind_eq_error] at h
  rcases h with h | ⟨b, hb, h⟩
  · exact .own (isNull_own h)
  split at h
  · cases h
  split at h
  · rw [except_bind_eq_error] at h
    rcases h with h | ⟨i, hi, h⟩
    · exact .own (structPre_own h)
    · split at h
      · have ho : (if ko.isEmpty then defn.map (·.1) else ko) = visited defn ko := by
          unfold visited; cases ko <;> simp
        rw [ho] at h
        rcases structBody_located hr h with h | ⟨d, v, hd, rfl⟩
        · exact .own h
        · exact .structure hd
      · cases h
  · exact .own (own_mkErr (Except.error.inj h))

theorem poly_located {c : Common} {dsc : Field} {vs : List (Val × List (Str × Field))} {strict part : Bool} {ko : List Str}
    {v : Val} {anc : List Str} {e : SErr} (hr : Locates env rec)
    (h : processPoly env rec c dsc vs strict ko part v ph ser anc = .error (.structural e)) :
    Located env ph ser (.poly c dsc vs strict ko) (ancOr (.poly c dsc vs strict ko) anc) e := by
  unfold processPoly at h
  rw [except_bind_eq_error] at h
  rcases h with h | ⟨b, hb, h⟩
  · exact .own (isNull_own h)
  split at h
  · cases h
  split at h
  · rw [except_bind_eq_error] at h
    rcases h with h | ⟨i, hi, h⟩
    · exact .own (structPre_own h)
    · split at h
      · rename_i d'
        simp only at h
        split at h
        · exact .own (own_mkErr (Except.error.inj h))
        · simp only [except_throw] at h
          generalize (dictGet d' (.str (dsc.name.getD []))).getD .none = w at h
          have h : (rec dsc w ph ser (ancOr (.poly c dsc vs strict ko) anc ++ ['.' :: dsc.name.getD []]) >>= fun id =>
              if (!hashable id) = true then .error (.py .typeError) else
              match variantGet vs id with
              | none => .error (mkErr (.poly c dsc vs strict ko) .validation (ancOr (.poly c dsc vs strict ko) anc) id c!"unrecognized" [])
              | some defn =>
                if defn.isEmpty then .error (mkErr (.poly c dsc vs strict ko) .validation (ancOr (.poly c dsc vs strict ko) anc) id c!"unrecognized" [])
                else if (!ko.isEmpty && id.truthy) = true then .error (.py .typeError) else
                structBody env rec (.poly c dsc vs strict ko) strict (if ko.isEmpty then defn.map (·.1) else ko) defn d'
                  ph ser part (ancOr (.poly c dsc vs strict ko) anc) : Except Exn Val) = .error (.structural e) := h
          rw [except_bind_eq_error] at h
          rcases h with h | ⟨id, hid, h⟩
          · have := hr.1 _ _ _ _ _ _ h
            rw [ancOr_append] at this
            exact .disc this
          · split at h
            · cases h
            · split at h
              · exact .own (own_mkErr (Except.error.inj h))
              · rename_i defn hv
                obtain ⟨i, hvs⟩ := variantGet_mem hv
                split at h
                · exact .own (own_mkErr (Except.error.inj h))
                · split at h
                  · cases h
                  · have ho : (if ko.isEmpty then defn.map (·.1) else ko) = visited defn ko := by
                      unfold visited; cases ko <;> simp
                    rw [ho] at h
                    rcases structBody_located hr h with h | ⟨d, v, hd, rfl⟩
                    · exact .own h
                    · exact .variant hvs hd
      · cases h
  · exact .own (own_mkErr (Except.error.inj h))

end

/-- C08: every structural error raised by processing, and every error nested in it, is located at the path of the
value it is about. -/
theorem C08_locations (env : Env) (n : Nat) (f : Field) (v : Val) (ph : Phase) (ser : Bool) (anc : List Str) (e : SErr)
    (h : process env n f v ph ser anc = .error (.structural e)) : Located env ph ser f (ancOr f anc) e := by
  induction n generalizing f v ph ser anc e with
  | zero => cases h
  | succ n ih =>
    have hr : Locates env (process env n) := ⟨ih, fun f v ph ser anc x h => ⟨n, v, h⟩⟩
    cases f with
    | leaf c k => exact leaf_located h
    | sequence => exact sequence_located hr h
    | tuple => exact tuple_located hr h
    | map => exact map_located hr h
    | union => exact union_located hr h
    | «structure» => exact structure_located hr h
    | poly => exact poly_located hr h
    | undef => cases h

/-- The same for `process(..., partial=True)`. -/
theorem C08_subset_locations (env : Env) (n : Nat) (f : Field) (v : Val) (ph : Phase) (ser : Bool) (anc : List Str) (e : SErr)
    (h : processPartial env n f v ph ser anc = .error (.structural e)) : Located env ph ser f (ancOr f anc) e := by
  have hr : Locates env (process env n) := ⟨C08_locations env n, fun f v ph ser anc x h => ⟨n, v, h⟩⟩
  unfold processPartial at h
  split at h
  · exact structure_located hr h
  · exact poly_located hr h
  · cases h

/-- Fields whose error may carry another identity than the one the field was called with. -/
def Elsewhere (ph : Phase) (ser : Bool) : Field → Prop
  | .poly .. => True
  | .union .. => True
  | .leaf _ .object => ph = .outbound ∧ ser = true
  | .leaf _ (.definition _) => ph = .outbound ∧ ser = true
  | .leaf _ (.surrogate _) => ser = true
  | _ => False

/-- The error itself is located where the field was called, or at the field's own name. -/
theorem C08_identity (env : Env) (n : Nat) (f : Field) (v : Val) (ph : Phase) (ser : Bool) (anc : List Str) (e : SErr)
    (hf : ¬ Elsewhere ph ser f) (h : process env n f v ph ser anc = .error (.structural e)) :
    e.identity = if anc = [] then [guaranteedName f] else anc := by
  have hl := C08_locations env n f v ph ser anc e h
  have ha : ancOr f anc = if anc = [] then [guaranteedName f] else anc := by cases anc <;> simp [ancOr]
  rw [← ha]
  cases hl with
  | own h => exact h.1
  | sequence => rfl
  | tuple => rfl
  | map => rfl
  | «structure» => rfl
  | variant => rfl
  | union => exact (hf trivial).elim
  | disc => exact (hf trivial).elim
  | object h1 h2 => exact (hf ⟨h1, h2⟩).elim
  | describe h1 h2 => exact (hf ⟨h1, h2⟩).elim
  | surrogateIn h1 h2 => exact (hf h2).elim
  | surrogateOut h1 h2 => exact (hf h2).elim

/-- A union of such fields also stays where it was called. -/
theorem C08_union_identity (env : Env) (n : Nat) (c : Common) (fs : List Field) (v : Val) (ph : Phase) (ser : Bool)
    (anc : List Str) (e : SErr) (hf : ∀ f ∈ fs, ∀ g, resolve env f = some g → ¬ Elsewhere ph ser g)
    (h : process env n (.union c fs) v ph ser anc = .error (.structural e)) :
    e.identity = if anc = [] then [guaranteedName (.union c fs)] else anc := by
  have hl := C08_locations env n _ v ph ser anc e h
  have ha : ancOr (.union c fs) anc = if anc = [] then [guaranteedName (.union c fs)] else anc := by cases anc <;> simp [ancOr]
  rw [← ha]
  cases hl with
  | own h => exact h.1
  | union hm hg h =>
    have hf := hf _ hm _ hg
    cases h with
    | own h => exact h.1
    | sequence => rfl
    | tuple => rfl
    | map => rfl
    | «structure» => rfl
    | variant => rfl
    | union => exact (hf trivial).elim
    | disc => exact (hf trivial).elim
    | object h1 h2 => exact (hf ⟨h1, h2⟩).elim
    | describe h1 h2 => exact (hf ⟨h1, h2⟩).elim
    | surrogateIn h1 h2 => exact (hf h2).elim
    | surrogateOut h1 h2 => exact (hf h2).elim

namespace Ex

def points : Field := .structure { name := some c!"root" }
  [(c!"points", .sequence {} (.leaf {} (.integer none none)) none none false), (c!"who", .leaf { required := true } (.text none none none true))] true []

end Ex

/-- A failing value: the error in the second item is at `root.points[1]`, the missing and the surplus key are
reported at `root`. -/
example : ∃ e t1 m1 t2 m2 t3 m3, process Ex.env 3 Ex.points (.dict [(.str c!"points", .list [.int 1, .str c!"x"]), (.str c!"more", .int 2)])
      .inbound false [] = .error (.structural e) ∧
    e.identity = [c!"root"] ∧ e.struct = .dict [
      (.str c!"points", .exc .validation [c!"root", c!".points"] [] (.list [.int 1,
        .exc .invalidType [c!"root", c!".points", c!"[1]"] [errItem c!"invalid" t1 m1] .none (.str c!"x")]) (.list [.int 1, .str c!"x"])),
      (.str c!"who", .exc .validation [c!"root"] [errItem c!"required" t2 m2] .none .none),
      (.str c!"more", .exc .validation [c!"root"] [errItem c!"unknown" t3 m3] .none .none)] :=
  ⟨_, _, _, _, _, _, _, rfl, rfl, rfl⟩

/-! ### Deviations -/

/-- A bad discriminator is reported at the discriminator itself, not inside an error of the structure. -/
theorem C08_discriminator_identity :
    let f : Field := .poly { name := some c!"root" } (.leaf { name := some c!"type" } (.integer none none))
      [(.int 1, [(c!"type", .leaf {} (.integer none none))])] true []
    ∃ e, process Ex.env 3 f (.dict [(.str c!"type", .str c!"x")]) .inbound false [] = .error (.structural e) ∧
      e.identity = [c!"root", c!".type"] ∧ e.struct = .none := ⟨_, rfl, rfl, rfl⟩

/-- An object that cannot be serialized is reported without its location. -/
theorem C08_object_identity :
    ∃ e, process Ex.env 3 (.leaf { name := some c!"root" } .object) (.int 1) .outbound true [] = .error (.structural e) ∧
      e.identity = [c!"(unknown)"] := ⟨_, rfl, rfl⟩

end Scheme
