import Verif.Lemmas.MapLoop

/-! C11: maps.  C07 for maps. -/

namespace Scheme

/-- The key `k` of a map is accepted as `k'`: without key field it must be text and is kept, otherwise
it is what the key field, located at `[k]`, makes of it. -/
inductive KeyOk (env : Env) (n : Nat) (ph : Phase) (ser : Bool) (anc : List Str) :
    Option Field → Val → Val → Prop
  | text (s : Str) : KeyOk env n ph ser anc none (.str s) (.str s)
  | field {kf k k' st} : keyStep env k = .ok st → process env n kf k ph ser (anc ++ [st]) = .ok k' →
      KeyOk env n ph ser anc (some kf) k k'

/-- The key `k` of a map is rejected. -/
inductive KeyBad (env : Env) (n : Nat) (ph : Phase) (ser : Bool) (anc : List Str) :
    Option Field → Val → Prop
  | text {k} : (∀ s, k ≠ .str s) → KeyBad env n ph ser anc none k
  | field {kf k st e} : keyStep env k = .ok st →
      process env n kf k ph ser (anc ++ [st]) = .error (.structural e) →
      KeyBad env n ph ser anc (some kf) k

/-- The value `v` stored under the processed key `k'` is accepted with result `r`. -/
def EntryOk (env : Env) (n : Nat) (ph : Phase) (ser : Bool) (anc : List Str) (value : Field)
    (k' v r : Val) : Prop :=
  ∃ g st, resolve env value = some g ∧ keyStep env k' = .ok st ∧
    process env n g v ph ser (anc ++ [st]) = .ok r

/-- The value `v` stored under the processed key `k'` fails with the structural error `e`. -/
def EntryBad (env : Env) (n : Nat) (ph : Phase) (ser : Bool) (anc : List Str) (value : Field)
    (k' v : Val) (e : SErr) : Prop :=
  ∃ g st, resolve env value = some g ∧ keyStep env k' = .ok st ∧
    process env n g v ph ser (anc ++ [st]) = .error (.structural e)

theorem mapKey_ok_iff {env : Env} {n : Nat} {f : Field} {whole : Val} {key : Option Field} {ph : Phase}
    {ser : Bool} {anc : List Str} {k k' : Val} :
    mapKey env (process env n) f whole key ph ser anc k = .ok k' ↔ KeyOk env n ph ser anc key k k' := by
  have hm : ∀ a, (Except.error (mkErr f .validation anc whole c!"invalidkeys" []) : Except Exn Val) ≠ .ok a := by
    intro a; simp
  constructor
  · intro h
    unfold mapKey at h
    cases key with
    | none =>
      simp only at h
      cases k <;> simp [Val.isStr] at h
      subst h; exact .text _
    | some kf =>
      simp only [except_bind_eq_ok] at h
      obtain ⟨st, h1, h⟩ := h
      split at h
      · simp only [Except.ok.injEq] at h; subst h; exact .field h1 ‹_›
      · simp at h
      · simp at h
  · rintro (⟨s⟩ | ⟨h1, h2⟩)
    · rfl
    · simp [mapKey, h1, h2]

theorem mapKey_bad {env : Env} {n : Nat} {f : Field} {whole : Val} {key : Option Field} {ph : Phase}
    {ser : Bool} {anc : List Str} {k : Val} (h : KeyBad env n ph ser anc key k) :
    mapKey env (process env n) f whole key ph ser anc k =
      .error (mkErr f .validation anc whole c!"invalidkeys" []) := by
  rcases h with ⟨h⟩ | ⟨h1, h2⟩
  · cases k <;> first | rfl | exact absurd rfl (h _)
  · simp [mapKey, h1, h2]

theorem entryOut_ok_iff {env : Env} {n : Nat} {f : Field} {whole : Val} {key : Option Field}
    {value : Field} {ph : Phase} {ser : Bool} {anc : List Str} {k v k' x : Val} {b : Bool} :
    entryOut env (process env n) f whole key value ph ser anc (k, v) = .ok (k', x, b) ↔
      KeyOk env n ph ser anc key k k' ∧ hashable k' = true ∧
        ((b = true ∧ EntryOk env n ph ser anc value k' v x) ∨
         (b = false ∧ ∃ e, x = .exc e.cls e.identity e.errors e.struct e.value ∧
            EntryBad env n ph ser anc value k' v e)) := by
  unfold entryOut
  rw [except_bind_eq_ok]
  constructor
  · rintro ⟨k1, h1, h⟩
    rw [except_bind_eq_ok] at h
    obtain ⟨st, h2, h⟩ := h
    rw [except_bind_eq_ok] at h
    obtain ⟨y, h3, h⟩ := h
    split at h
    · rename_i hh
      simp only [except_pure, Except.ok.injEq, Prod.mk.injEq] at h
      obtain ⟨rfl, rfl, rfl⟩ := h
      refine ⟨mapKey_ok_iff.1 h1, hh, ?_⟩
      unfold callChild at h3
      cases hg : resolve env value with
      | none => simp [hg, collect] at h3
      | some g =>
        rw [hg] at h3
        simp only at h3
        cases hc : process env n g v ph ser (anc ++ [st]) with
        | ok r =>
          rw [hc] at h3
          simp only [collect, Except.ok.injEq] at h3
          subst h3
          exact .inl ⟨rfl, g, st, hg, h2, hc⟩
        | error e =>
          rw [hc] at h3
          cases e <;> simp only [collect, Except.ok.injEq, reduceCtorEq] at h3
          subst h3
          exact .inr ⟨rfl, _, rfl, g, st, hg, h2, hc⟩
    · simp at h
  · rintro ⟨hk, hh, h⟩
    refine ⟨k', mapKey_ok_iff.2 hk, ?_⟩
    rcases h with ⟨rfl, g, st, hg, h2, hc⟩ | ⟨rfl, e, rfl, g, st, hg, h2, hc⟩
    · simp [h2, callChild, hg, hc, collect, hh]
    · simp [h2, callChild, hg, hc, collect, hh, SErr.toVal]

theorem foldl_pairs (es : List (Val × Val × Bool)) (acc : List (Val × Val)) :
    es.foldl (fun a e => dictSet a e.1 e.2.1) acc =
      (es.map fun e => (e.1, e.2.1)).foldl (fun a e => dictSet a e.1 e.2) acc := by
  rw [List.foldl_map]

/-- C11. Exactly when, and with what result, a map accepts a dict: every key is accepted and hashable
after processing, every value is accepted by the value field at the location of its processed key, and
every required key is among the processed keys.  The result is what assigning the processed entries
one after the other to an empty dict gives. -/
theorem C11_map_accepts_iff (env : Env) (n : Nat) (c : Common) (key : Option Field) (value : Field)
    (req : List Val) (hpre : c.pre = none) (d : List (Val × Val)) (w : Val)
    (ph : Phase) (ser : Bool) (anc : List Str) (ha : anc ≠ []) :
    process env (n + 1) (.map c key value req) (.dict d) ph ser anc = .ok w ↔
      ∃ es : List (Val × Val), es.length = d.length ∧
        (∀ (i : Nat) k v, d[i]? = some (k, v) → ∃ k' r, es[i]? = some (k', r) ∧ KeyOk env n ph ser anc key k k' ∧
          hashable k' = true ∧ EntryOk env n ph ser anc value k' v r) ∧
        ∃ out, w = .dict out ∧ out = es.foldl (fun a e => dictSet a e.1 e.2) [] ∧
          ∀ k ∈ req, hashable k = true ∧ ∃ e ∈ out, pyEq k e.1 = true := by
  show processMap env (process env n) c key value req (.dict d) ph ser anc = .ok w ↔ _
  rw [processMap_dict hpre ha, except_bind_eq_ok]
  constructor
  · rintro ⟨es, h1, h⟩
    rw [except_bind_eq_ok] at h
    obtain ⟨⟨out, b⟩, h2, h⟩ := h
    cases b with
    | false => simp at h
    | true =>
      simp only [if_true, Except.ok.injEq] at h
      rw [mapRequired_ok_true] at h2
      obtain ⟨hall, rfl, hreq⟩ := h2
      rw [seqAll_eq_ok] at h1
      refine ⟨es.map fun e => (e.1, e.2.1), ?_, ?_, _, h.symm, foldl_pairs _ _, hreq⟩
      · have := congrArg List.length h1; simpa using this.symm
      · intro i k v hi
        have := congrArg (fun t => t[i]?) h1
        simp only [List.getElem?_map, hi, Option.map_some] at this
        cases he : es[i]? with
        | none => simp [he] at this
        | some e =>
          obtain ⟨k', x, b⟩ := e
          simp only [he, Option.map_some, Option.some.injEq] at this
          have hb : b = true := List.all_eq_true.1 hall _ (List.mem_of_getElem? he)
          subst hb
          obtain ⟨hk, hh, h | h⟩ := entryOut_ok_iff.1 this
          · exact ⟨k', x, by simp [he], hk, hh, h.2⟩
          · simp at h
  · rintro ⟨es, hlen, h, out, rfl, rfl, hreq⟩
    refine ⟨es.map fun e => (e.1, e.2, true), ?_, ?_⟩
    · rw [seqAll_eq_ok]
      apply List.ext_getElem?
      intro i
      simp only [List.getElem?_map]
      cases hd : d[i]? with
      | none =>
        have : es[i]? = none := by rw [List.getElem?_eq_none_iff] at hd ⊢; omega
        simp [this]
      | some e =>
        obtain ⟨k, v⟩ := e
        obtain ⟨k', r, he, hk, hh, hv⟩ := h i k v hd
        simp only [he, Option.map_some]
        exact congrArg some (entryOut_ok_iff.2 ⟨hk, hh, .inl ⟨rfl, hv⟩⟩)
    · rw [except_bind_eq_ok]
      refine ⟨(es.foldl (fun a e => dictSet a e.1 e.2) [], true), ?_, by simp⟩
      rw [mapRequired_ok_true, foldl_pairs]
      simp only [List.map_map]
      have : ((fun e : Val × Val × Bool => (e.1, e.2.1)) ∘ fun e : Val × Val => (e.1, e.2, true)) = id := rfl
      rw [this, List.map_id]
      exact ⟨by simp, rfl, hreq⟩

/-- C11. When the processed keys are pairwise different, the accepted result has exactly one entry per
input entry, in order. -/
theorem C11_map_entries (env : Env) (n : Nat) (c : Common) (key : Option Field) (value : Field)
    (req : List Val) (hpre : c.pre = none) (d es : List (Val × Val))
    (ph : Phase) (ser : Bool) (anc : List Str) (ha : anc ≠ []) (hlen : es.length = d.length)
    (h : ∀ (i : Nat) k v, d[i]? = some (k, v) → ∃ k' r, es[i]? = some (k', r) ∧ KeyOk env n ph ser anc key k k' ∧
          hashable k' = true ∧ EntryOk env n ph ser anc value k' v r)
    (hd : es.Pairwise fun a b => pyEq b.1 a.1 = false)
    (hreq : ∀ k ∈ req, hashable k = true ∧ ∃ e ∈ es, pyEq k e.1 = true) :
    process env (n + 1) (.map c key value req) (.dict d) ph ser anc = .ok (.dict es) := by
  rw [C11_map_accepts_iff env n c key value req hpre d _ ph ser anc ha]
  have hf : es.foldl (fun a e => dictSet a e.1 e.2) [] = es := by
    rw [foldl_dictSet_new es [] hd (by simp)]; rfl
  exact ⟨es, hlen, h, es, rfl, hf.symm, hreq⟩

example : process Ex.env 2 (.map {} none Ex.int [.str c!"a"])
    (.dict [(.str c!"b", .int 1), (.str c!"a", .int 2)]) .inbound false [c!"m"] =
      .ok (.dict [(.str c!"b", .int 1), (.str c!"a", .int 2)]) := rfl

/-- C11. Keys that processing makes equal collapse into one entry holding the later value. -/
theorem C11_collapsing_keys :
    process Ex.env 2 (.map {} (some Ex.text) Ex.int [])
      (.dict [(.str c!"a", .int 1), (.str c!" a", .int 2)]) .inbound false [c!"m"] =
        .ok (.dict [(.str c!"a", .int 2)]) := rfl

/-- C11. The first rejected key rejects the whole map with 'invalidkeys'. -/
theorem C11_invalidkeys (env : Env) (n : Nat) (c : Common) (key : Option Field) (value : Field)
    (req : List Val) (hpre : c.pre = none) (hp : plainErrors (.map c key value req))
    (before after : List (Val × Val)) (k v : Val)
    (ph : Phase) (ser : Bool) (anc : List Str) (ha : anc ≠ [])
    (hbefore : ∀ e ∈ before, ∃ k', KeyOk env n ph ser anc key e.1 k' ∧ hashable k' = true ∧
      ((∃ r, EntryOk env n ph ser anc value k' e.2 r) ∨ ∃ r, EntryBad env n ph ser anc value k' e.2 r))
    (hbad : KeyBad env n ph ser anc key k) :
    Raises (process env (n + 1) (.map c key value req) (.dict (before ++ (k, v) :: after)) ph ser anc)
      .validation anc (.dict (before ++ (k, v) :: after)) c!"invalidkeys" := by
  show Raises (processMap env (process env n) c key value req _ ph ser anc) _ _ _ _
  rw [processMap_dict hpre ha]
  generalize (.dict (before ++ (k, v) :: after) : Val) = whole
  rw [List.map_append, List.map_cons]
  have h1 : entryOut env (process env n) (.map c key value req) whole key value ph ser anc (k, v) =
      .error (mkErr (.map c key value req) .validation anc whole c!"invalidkeys" []) := by
    simp [entryOut, mapKey_bad hbad]
  have h2 : ∃ rs : List (Val × Val × Bool), before.map (entryOut env (process env n) (.map c key value req) whole key value ph ser anc) =
      rs.map .ok := by
    induction before with
    | nil => exact ⟨[], rfl⟩
    | cons e r ih =>
      obtain ⟨rs, hrs⟩ := ih (fun e he => hbefore e (List.mem_cons_of_mem _ he))
      obtain ⟨k', hk, hh, h⟩ := hbefore e (List.mem_cons_self ..)
      obtain ⟨k0, v0⟩ := e
      rcases h with ⟨x, h⟩ | ⟨x, h⟩
      · exact ⟨(k', x, true) :: rs, by
          rw [List.map_cons, List.map_cons, hrs, entryOut_ok_iff.2 ⟨hk, hh, .inl ⟨rfl, h⟩⟩]⟩
      · exact ⟨(k', .exc x.cls x.identity x.errors x.struct x.value, false) :: rs, by
          rw [List.map_cons, List.map_cons, hrs, entryOut_ok_iff.2 ⟨hk, hh, .inr ⟨rfl, x, rfl, h⟩⟩]⟩
  obtain ⟨rs, hrs⟩ := h2
  rw [h1, seqAll_error hrs, except_bind_error]
  exact mkErr_class _ _ _ _ _ _ hp ⟨_, rfl, rfl⟩

example : Raises (process Ex.env 2 (.map {} none Ex.int [])
    (.dict ([(.str c!"b", .str c!"bad")] ++ (.int 1, .int 1) :: [])) .inbound false [c!"m"])
    .validation [c!"m"] (.dict ([(.str c!"b", .str c!"bad")] ++ (.int 1, .int 1) :: [])) c!"invalidkeys" :=
  C11_invalidkeys _ _ _ _ _ _ rfl (by simp [plainErrors, Field.common?]) _ _ _ _ _ _ _ (by simp)
    (by
      intro e he
      rw [List.mem_singleton] at he; subst he
      exact ⟨_, .text _, rfl, .inr ⟨_, _, _, rfl, rfl, rfl⟩⟩)
    (.text (by simp))

/-- C11. Anything but a dict or null is a type error. -/
theorem C11_not_a_map (env : Env) (n : Nat) (c : Common) (key : Option Field) (value : Field)
    (req : List Val) (hp : plainErrors (.map c key value req)) (v : Val) (hv : v ≠ .none)
    (hl : ∀ d, v ≠ .dict d) (ph : Phase) (ser : Bool) (anc : List Str) (ha : anc ≠ []) :
    Raises (process env (n + 1) (.map c key value req) v ph ser anc) .invalidType anc v c!"invalid" := by
  show Raises (processMap env (process env n) c key value req v ph ser anc) _ _ _ _
  have hn : isNull (.map c key value req) v anc = .ok false := isNull_nonEnum rfl (by simp) hv
  unfold processMap
  simp only [ancOr_ne ha, hn, except_bind_ok]
  cases v <;> first | exact absurd rfl (hl _) | exact mkErr_class _ _ _ _ _ _ hp ⟨_, rfl, rfl⟩

/-- What the required keys check appends: one 'required' error, located at the map itself, for each
required key that is missing. -/
theorem mapRequired_report (env : Env) (c : Common) (key : Option Field) (value : Field)
    (req0 : List Val) (hp : plainErrors (.map c key value req0)) (anc : List Str) (req : List Val)
    (acc : List (Val × Val)) (b : Bool) (hh : ∀ k ∈ req, hashable k = true)
    (hd : req.Pairwise fun x y => pyEq y x = false) :
    ∃ extra : List (Val × Val),
      mapRequired env (.map c key value req0) anc req acc b =
        .ok (acc ++ extra, b && extra.isEmpty) ∧
      extra.map (·.1) = req.filter (fun k => !(acc.any fun e => pyEq k e.1)) ∧
      ∀ e ∈ extra, ∃ t m, e.2 = .exc .validation anc [errItem c!"required" t m] .none .none := by
  induction req generalizing acc b with
  | nil => exact ⟨[], by simp [mapRequired], rfl, by simp⟩
  | cons k r ih =>
    rw [List.pairwise_cons] at hd
    have hhr : ∀ x ∈ r, hashable x = true := fun x hx => hh x (List.mem_cons_of_mem _ hx)
    rw [mapRequired, if_pos (hh k (List.mem_cons_self ..))]
    cases hg : dictGet acc k with
    | some x =>
      obtain ⟨extra, h1, h2, h3⟩ := ih acc b hhr hd.2
      refine ⟨extra, h1, ?_, h3⟩
      have : (acc.any fun e => pyEq k e.1) = true := by
        rw [List.any_eq_true]; exact (dictGet_isSome acc k).1 (by rw [hg]; rfl)
      rw [List.filter_cons, this]; simpa using h2
    | none =>
      have hn := (dictGet_none acc k).1 hg
      obtain ⟨t, m, hm⟩ := mkErr_map_required c key value req0 hp anc (keyText env k)
      simp only [hm]
      rw [dictSet_new acc k _ hn]
      obtain ⟨extra, h1, h2, h3⟩ := ih (acc ++ [(k, SErr.toVal ⟨.validation, anc, [errItem c!"required" t m], .none, .none⟩)])
        false hhr hd.2
      refine ⟨(k, SErr.toVal ⟨.validation, anc, [errItem c!"required" t m], .none, .none⟩) :: extra, ?_, ?_, ?_⟩
      · rw [h1]; simp
      · have : (acc.any fun e => pyEq k e.1) = false := by
          rw [List.any_eq_false]; intro e he; rw [hn e he]; simp
        rw [List.filter_cons, this, List.map_cons, h2]
        simp only [Bool.not_false, if_true, List.cons.injEq, true_and]
        apply List.filter_congr
        intro x hx
        rw [List.any_append]
        simp [hd.1 x hx]
      · intro e he
        rcases List.mem_cons.1 he with rfl | he
        · exact ⟨t, m, rfl⟩
        · exact h3 e he

/-- C07/C11 for maps. If every key is accepted (with pairwise different results) but some value fails
or some required key is missing, the error raised sits at the map and its structure holds, in order,
for every entry the value's own error object or its processed value, then for each missing required
key (and only for those) a 'required' error located at the map. -/
theorem C07_map_report (env : Env) (n : Nat) (c : Common) (key : Option Field) (value : Field)
    (req : List Val) (hpre : c.pre = none) (hp : plainErrors (.map c key value req))
    (d outs : List (Val × Val)) (ph : Phase) (ser : Bool) (anc : List Str) (ha : anc ≠ [])
    (hlen : outs.length = d.length)
    (h : ∀ (i : Nat) k v, d[i]? = some (k, v) → ∃ k' x, outs[i]? = some (k', x) ∧
      KeyOk env n ph ser anc key k k' ∧ hashable k' = true ∧
      (EntryOk env n ph ser anc value k' v x ∨
        ∃ e, x = .exc e.cls e.identity e.errors e.struct e.value ∧ EntryBad env n ph ser anc value k' v e))
    (hd : outs.Pairwise fun a b => pyEq b.1 a.1 = false)
    (hreq : ∀ k ∈ req, hashable k = true) (hreqd : req.Pairwise fun x y => pyEq y x = false)
    (hbad : (∃ (i : Nat) (k v k' : Val) (e : SErr), d[i]? = some (k, v) ∧ KeyOk env n ph ser anc key k k' ∧
        EntryBad env n ph ser anc value k' v e) ∨
      ∃ k ∈ req, ∀ e ∈ outs, pyEq k e.1 = false) :
    ∃ extra : List (Val × Val),
      process env (n + 1) (.map c key value req) (.dict d) ph ser anc =
        .error (.structural ⟨.validation, anc, [], .dict (outs ++ extra), .dict d⟩) ∧
      extra.map (·.1) = req.filter (fun k => !(outs.any fun e => pyEq k e.1)) ∧
      ∀ e ∈ extra, ∃ t m, e.2 = .exc .validation anc [errItem c!"required" t m] .none .none := by
  show ∃ extra : List (Val × Val),
      processMap env (process env n) c key value req (.dict d) ph ser anc = _ ∧ _
  rw [processMap_dict hpre ha]
  -- the flags
  have hes : ∃ es : List (Val × Val × Bool),
      seqAll (d.map (entryOut env (process env n) (.map c key value req) (.dict d) key value ph ser anc)) = .ok es ∧
      es.map (fun e => (e.1, e.2.1)) = outs ∧
      ((∃ (i : Nat) (k v k' : Val) (e : SErr), d[i]? = some (k, v) ∧ KeyOk env n ph ser anc key k k' ∧
        EntryBad env n ph ser anc value k' v e) → es.all (·.2.2) = false) := by
    generalize hw : (Val.dict d) = whole
    clear hw hd hbad
    induction d generalizing outs with
    | nil =>
      cases outs with
      | nil => exact ⟨[], rfl, rfl, by simp⟩
      | cons _ _ => simp at hlen
    | cons e r ih =>
      cases outs with
      | nil => simp at hlen
      | cons o os =>
        obtain ⟨k, v⟩ := e
        obtain ⟨es, h1, h2, h3⟩ := ih os (by simpa using hlen) (fun i k v hi => by
          have := h (i + 1) k v (by simpa using hi); simpa using this)
        obtain ⟨k', x, ho, hk, hh, hx⟩ := h 0 k v rfl
        simp only [List.getElem?_cons_zero, Option.some.injEq] at ho
        subst ho
        have hkfun : ∀ k2, KeyOk env n ph ser anc key k k2 → k2 = k' := by
          intro k2 hk2
          cases hk with
          | text s => cases hk2; rfl
          | field a b =>
            cases hk2 with
            | field a' b' => rw [a] at a'; cases a'; rw [b] at b'; cases b'; rfl
        rcases hx with hx | ⟨e, rfl, hx⟩
        · refine ⟨(k', x, true) :: es, ?_, ?_, ?_⟩
          · rw [List.map_cons, seqAll, entryOut_ok_iff.2 ⟨hk, hh, .inl ⟨rfl, hx⟩⟩, except_bind_ok, h1]; rfl
          · simp [h2]
          · rintro ⟨i, k0, v0, k1, e, hi, hk1, he⟩
            cases i with
            | zero =>
              simp only [List.getElem?_cons_zero, Option.some.injEq, Prod.mk.injEq] at hi
              obtain ⟨rfl, rfl⟩ := hi
              have := hkfun k1 hk1; subst this
              obtain ⟨g, st, a1, a2, a3⟩ := hx
              obtain ⟨g', st', b1, b2, b3⟩ := he
              rw [a1] at b1; cases b1; rw [a2] at b2; cases b2; rw [a3] at b3; cases b3
            | succ i =>
              have := h3 ⟨i, k0, v0, k1, e, by simpa using hi, hk1, he⟩
              simp [this]
        · refine ⟨(k', .exc e.cls e.identity e.errors e.struct e.value, false) :: es, ?_, ?_, ?_⟩
          · rw [List.map_cons, seqAll, entryOut_ok_iff.2 ⟨hk, hh, .inr ⟨rfl, e, rfl, hx⟩⟩, except_bind_ok, h1]; rfl
          · simp [h2]
          · intro _; simp
  obtain ⟨es, h1, h2, h3⟩ := hes
  rw [h1, except_bind_ok, foldl_pairs, h2, foldl_dictSet_new outs [] hd (by simp), List.nil_append]
  obtain ⟨extra, r1, r2, r3⟩ := mapRequired_report env c key value req hp anc req outs (es.all (·.2.2)) hreq hreqd
  refine ⟨extra, ?_, r2, r3⟩
  rw [r1, except_bind_ok]
  have hf : (es.all (·.2.2) && extra.isEmpty) = false := by
    rcases hbad with hb | ⟨k, hk, hb⟩
    · rw [h3 hb]; rfl
    · have : extra ≠ [] := by
        rintro rfl
        have hm : k ∈ req.filter (fun k => !(outs.any fun e => pyEq k e.1)) := by
          rw [List.mem_filter]
          refine ⟨hk, ?_⟩
          have : (outs.any fun e => pyEq k e.1) = false := by
            rw [List.any_eq_false]; intro e he; rw [hb e he]; simp
          rw [this]; rfl
        rw [← r2] at hm; simp at hm
      cases extra with
      | nil => exact absurd rfl this
      | cons _ _ => simp
  simp only [hf, Bool.false_eq_true, if_false]

end Scheme
