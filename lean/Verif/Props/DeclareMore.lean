import Verif.Props.Declare
import Verif.Props.Relax

/-! C70 for the types made of other fields, and for tokens and definitions. -/

namespace Scheme

section
variable {env : Env} {args : Args} {f : Field} {n : Nat} {v w : Val} {anc : List Str}

/-- C70. A Map accepts a dict exactly if the key field (if none is declared: nothing but texts) accepts its keys, the value
field its values, and the result has every key declared as required, listed or as the words of a text. -/
theorem C70_map (h : initField env c!"map" args = .ok f) {value : Field} {key : Option Field}
    (hv : args.lookup c!"value" = some (.field value))
    (hk : (key = none ∧ (args.lookup c!"key" = none ∨ args.lookup c!"key" = some (.val .none))) ∨
      ∃ kf, key = some kf ∧ args.lookup c!"key" = some (.field kf)) (d : List (Val × Val)) (ph : Phase) (ser : Bool) (ha : anc ≠ []) :
    process env (n + 1) f (.dict d) ph ser anc = .ok w ↔
      ∃ es : List (Val × Val), es.length = d.length ∧
        (∀ (i : Nat) k x, d[i]? = some (k, x) → ∃ k' r, es[i]? = some (k', r) ∧
          KeyOk env n ph ser anc key k k' ∧ hashable k' = true ∧ EntryOk env n ph ser anc value k' x r) ∧
        ∃ out, w = .dict out ∧ out = es.foldl (fun a e => dictSet a e.1 e.2) [] ∧
          ∀ l, (Gives args c!"required_keys" (.list l) ∨ Gives args c!"required_keys" (.tuple l) ∨
              ∃ ws, l = ws.map .str ∧ Gives args c!"required_keys" (.str (joinStr [' '] ws)) ∧ ∀ t ∈ ws, ' ' ∉ t) →
            ∀ k ∈ l, hashable k = true ∧ ∃ e ∈ out, pyEq k e.1 = true := by
  rw [initField_map, hv] at h
  obtain ⟨c, hc, h⟩ := except_bind_eq_ok.1 h
  obtain ⟨_, e, h⟩ := except_bind_eq_ok.1 h
  cases e
  obtain ⟨key', hkey, h⟩ := except_bind_eq_ok.1 h
  have : key' = key := by
    rcases hk with ⟨rfl, h1 | h1⟩ | ⟨kf, rfl, h1⟩ <;> rw [h1] at hkey <;> cases hkey <;> rfl
  subst this
  obtain ⟨a, ha1, h⟩ := except_bind_eq_ok.1 h
  obtain ⟨req, hreq, h⟩ := except_bind_eq_ok.1 h
  cases h
  have hanc : ancOr (.map c key' value req) anc = anc := by unfold ancOr; cases anc <;> simp_all
  rw [map_ok (initCommon_plain hc).1, hanc]
  have hall : ∀ P : Val → Prop, (∀ k ∈ req, P k) ↔
      ∀ l, (Gives args c!"required_keys" (.list l) ∨ Gives args c!"required_keys" (.tuple l) ∨
          ∃ ws, l = ws.map .str ∧ Gives args c!"required_keys" (.str (joinStr [' '] ws)) ∧ ∀ t ∈ ws, ' ' ∉ t) → ∀ k ∈ l, P k := by
    intro P
    rcases get_given ha1 with ⟨rfl, hno⟩ | hg
    · cases hreq
      refine ⟨fun _ l hl => ?_, fun _ k hk => absurd hk List.not_mem_nil⟩
      rcases hl with h | h | ⟨ws, -, h, -⟩ <;> exact absurd h (hno _)
    · unfold keysArg at hreq
      split at hreq
      · rename_i s
        cases hreq
        refine ⟨fun hall l hl => ?_, fun hall => hall (enumOfText s) (.inr (.inr ⟨splitOn ' ' s, rfl, ?_, fun t ht => splitOn_parts ht⟩))⟩
        · rcases hl with h | h | ⟨ws, rfl, h, hws⟩
          · cases hg.unique h
          · cases hg.unique h
          · cases hg.unique h
            cases ws with
            | nil => intro k hk; exact absurd hk List.not_mem_nil
            | cons a r =>
              unfold enumOfText at hall
              rwa [splitOn_join (by simp) hws] at hall
        · rw [join_splitOn]; exact hg
      · cases hreq
        refine ⟨fun hall l hl => ?_, fun hall => hall _ (.inl hg)⟩
        rcases hl with h | h | ⟨ws, rfl, h, hws⟩ <;> cases hg.unique h
        exact hall
      · cases hreq
        refine ⟨fun hall l hl => ?_, fun hall => hall _ (.inr (.inl hg))⟩
        rcases hl with h | h | ⟨ws, rfl, h, hws⟩ <;> cases hg.unique h
        exact hall
      · exact absurd rfl hg.2
      · cases hreq
  constructor
  · rintro (⟨h, -⟩ | ⟨d', es, e, h1, h2, out, h3, h4, h5⟩)
    · cases h
    · cases e; exact ⟨es, h1, h2, out, h3, h4, (hall _).1 h5⟩
  · rintro ⟨es, h1, h2, out, h3, h4, h5⟩
    exact .inr ⟨d, es, rfl, h1, h2, out, h3, h4, (hall _).2 h5⟩

theorem fieldsArg_fields {fs : List Field} {a : Arg} (h : a = .list (fs.map .field) ∨ a = .tuple (fs.map .field)) :
    fieldsArg (some a) = .ok fs := by
  rcases h with rfl | rfl <;> exact fieldArgs_fields fs

/-- C70. A Tuple accepts a list or tuple exactly if it is as long as the list of declared fields and each of them accepts its
item. -/
theorem C70_tuple (h : initField env c!"tuple" args = .ok f) {fs : List Field} {a : Arg} (hl : args.lookup c!"values" = some a)
    (hfs : a = .list (fs.map .field) ∨ a = .tuple (fs.map .field)) (l : List Val) (hv : v = .list l ∨ v = .tuple l)
    (ph : Phase) (ser : Bool) (ha : anc ≠ []) :
    process env (n + 1) f v ph ser anc = .ok w ↔
      ∃ rs, w = .tuple rs ∧ l.length = fs.length ∧ rs.length = l.length ∧
        ∀ i f x, fs[i]? = some f → l[i]? = some x → ∃ g r, resolve env f = some g ∧ rs[i]? = some r ∧
          process env n g x ph ser (anc ++ [c!"[" ++ natStr i ++ c!"]"]) = .ok r := by
  rw [initField_tuple, hl, fieldsArg_fields hfs] at h
  obtain ⟨c, hc, h⟩ := except_bind_eq_ok.1 h
  cases h
  have hanc : ancOr (.tuple c fs) anc = anc := by unfold ancOr; cases anc <;> simp_all
  rw [tup_ok (initCommon_plain hc).1, hanc]
  constructor
  · rintro (⟨h, -⟩ | ⟨l', rs, h1, h2, h3, h4, h5⟩)
    · rcases hv with rfl | rfl <;> cases h
    · have : l' = l := by rcases hv with rfl | rfl <;> rcases h1 with h1 | h1 <;> cases h1 <;> rfl
      subst this
      exact ⟨rs, h2, h3, h4, h5⟩
  · rintro ⟨rs, h2, h3, h4, h5⟩
    exact .inr ⟨l, rs, hv, h2, h3, h4, h5⟩

/-- C70. A Union accepts a value exactly if some declared field accepts it and all before reject its type. -/
theorem C70_union (h : initField env c!"union" args = .ok f) {fs : List Field} {a : Arg} (hl : args.lookup c!"fields" = some a)
    (hfs : a = .list (fs.map .field) ∨ a = .tuple (fs.map .field)) (hdef : ∀ f ∈ fs, ∃ g, resolve env f = some g) (hv : v ≠ .none)
    (ph : Phase) (ser : Bool) (ha : anc ≠ []) :
    process env (n + 1) f v ph ser anc = .ok w ↔
      ∃ before f g after, fs = before ++ f :: after ∧ resolve env f = some g ∧ process env n g v ph ser anc = .ok w ∧
        ∀ b ∈ before, ∃ g e, resolve env b = some g ∧ process env n g v ph ser anc = .error (.structural e) ∧ e.cls = .invalidType := by
  rw [initField_union, hl, fieldsArg_fields hfs] at h
  obtain ⟨c, hc, h⟩ := except_bind_eq_ok.1 h
  cases h
  have hanc : ancOr (.union c fs) anc = anc := by unfold ancOr; cases anc <;> simp_all
  show processUnion env (process env n) c fs v ph ser anc = .ok w ↔ _
  rw [union_accepts, hanc]
  have loop : ∀ fs : List Field, (∀ f ∈ fs, ∃ g, resolve env f = some g) →
      (unionLoop env (process env n) v ph ser anc fs = some (.ok w) ↔
        ∃ before f g after, fs = before ++ f :: after ∧ resolve env f = some g ∧ process env n g v ph ser anc = .ok w ∧
          ∀ b ∈ before, ∃ g e, resolve env b = some g ∧ process env n g v ph ser anc = .error (.structural e) ∧ e.cls = .invalidType) := by
    intro fs
    induction fs with
    | nil =>
      intro _
      exact ⟨fun h => (by cases h), fun ⟨b, f, g, r, h, _⟩ => (by cases b <;> cases h)⟩
    | cons f r ih =>
      intro hd
      obtain ⟨g, hg⟩ := hd f List.mem_cons_self
      have ih := ih fun x hx => hd x (List.mem_cons_of_mem _ hx)
      unfold unionLoop callChild
      rw [hg]
      dsimp only
      constructor
      · intro h
        split at h
        · rename_i e he
          split at h
          · rename_i hi
            obtain ⟨b, f', g', af, rfl, h1, h2, h3⟩ := ih.1 h
            refine ⟨f :: b, f', g', af, rfl, h1, h2, fun x hx => ?_⟩
            rcases List.mem_cons.1 hx with rfl | hx
            · exact ⟨g, e, hg, he, hi⟩
            · exact h3 x hx
          · cases h
        · exact ⟨[], f, g, r, rfl, hg, Option.some.inj h, fun x hx => absurd hx List.not_mem_nil⟩
      · rintro ⟨b, f', g', af, e, h1, h2, h3⟩
        cases b with
        | nil =>
          cases e
          rw [hg] at h1; cases h1
          rw [h2]
        | cons x b =>
          cases e
          obtain ⟨g2, er, k1, k2, k3⟩ := h3 f List.mem_cons_self
          rw [hg] at k1; cases k1
          rw [k2]
          simp only [k3, if_true]
          exact ih.2 ⟨b, f', g', af, rfl, h1, h2, fun y hy => h3 y (List.mem_cons_of_mem _ hy)⟩
  rw [loop fs hdef]
  exact ⟨fun h => h.elim (fun h => absurd h.1 hv) fun h => h.2, fun h => .inr ⟨hv, h⟩⟩

/-- C70. A Token accepts exactly the tokens with the declared number of segments. -/
theorem C70_token (h : initField env c!"token" args = .ok f) (hv : v ≠ .none) (ph : Phase) (ser : Bool) :
    process env (n + 1) f v ph ser anc = .ok w ↔
      w = v ∧ MeetsConstant args v ∧ ∃ s, v = .str s ∧ ∃ (t : Str) (k : Nat), (s = t ∨ s = t ++ ['\n']) ∧ IsToken env.u t k ∧
        ∀ i, Gives args c!"segments" (.int i) → i = k := by
  have e : initField env c!"token" args = (do
      let c ← initCommon [c!"segments"] args
      let seg ← args.get c!"segments"
      match seg with
      | .none => return .leaf c (.token none)
      | .int i => return .leaf c (.token (some i))
      | _ => unrepresented) := rfl
  rw [e] at h
  obtain ⟨c, hc, h⟩ := except_bind_eq_ok.1 h
  obtain ⟨seg, hs, h⟩ := except_bind_eq_ok.1 h
  have : ∃ o, f = .leaf c (.token o) ∧ ∀ k : Nat, (∀ m, o = some m → m = (k : Int)) ↔ ∀ i, Gives args c!"segments" (.int i) → i = k := by
    rcases get_given hs with ⟨rfl, hno⟩ | hg
    · cases h
      exact ⟨none, rfl, fun k => ⟨fun _ i hi => absurd hi (hno _), fun _ m hm => (by cases hm)⟩⟩
    · split at h
      · exact absurd rfl hg.2
      · rename_i i
        cases h
        refine ⟨some i, rfl, fun k => ⟨fun h j hj => ?_, fun h m hm => ?_⟩⟩
        · cases hg.unique hj; exact h _ rfl
        · cases hm; exact h _ hg
      · cases h
  obtain ⟨o, rfl, ho⟩ := this
  show processLeaf env c (.token o) v ph ser anc = .ok w ↔ _
  rw [processLeaf_ok]
  have hnull : isNull (.leaf c (.token o)) v (ancOr (.leaf c (.token o)) anc) = .ok false := by
    rw [isNull_ok (c := c) rfl]
    exact ⟨by show false = v.isNone; cases v <;> first | rfl | exact absurd rfl hv, fun h => (by cases h)⟩
  rw [hnull]
  have hdec : ∀ x, decodeStep env (.leaf c (.token o)) (.token o) v ph ser (ancOr (.leaf c (.token o)) anc) = .ok x ↔ x = v := by
    intro x
    unfold decodeStep
    split
    · exact ⟨fun h => (by cases h; rfl), fun h => h ▸ rfl⟩
    · exact ⟨fun h => (by cases h; rfl), fun h => h ▸ rfl⟩
  have henc : ∀ y x, encodeStep env (.leaf c (.token o)) (.token o) y ph ser (ancOr (.leaf c (.token o)) anc) = .ok x ↔ x = y := by
    intro y x
    unfold encodeStep
    split
    · rw [serOut_ok]; exact ⟨fun h => (by cases h; rfl), fun h => h ▸ rfl⟩
    · exact ⟨fun h => (by cases h; rfl), fun h => h ▸ rfl⟩
  have hpp : ∀ y x, preprocess env (.leaf c (.token o)) c (.token o) y (ancOr (.leaf c (.token o)) anc) = .ok x ↔ x = y := by
    intro y x
    unfold preprocess
    rw [(initCommon_plain hc).1]
    exact ⟨fun h => (by cases h; rfl), fun h => h ▸ rfl⟩
  simp only [hdec, henc, hpp, validate_token, initCommon_const hc]
  constructor
  · rintro (⟨h, -⟩ | ⟨-, v1, v2, v3, rfl, rfl, h1, ⟨rfl, s, h2, t, k, h3, h4, h5⟩, rfl⟩)
    · cases h
    · exact ⟨rfl, h1, s, h2, t, k, h3, h4, (ho k).1 h5⟩
  · rintro ⟨rfl, h1, s, h2, t, k, h3, h4, h5⟩
    exact .inr ⟨trivial, w, w, w, rfl, rfl, h1, ⟨rfl, s, h2, t, k, h3, h4, (ho k).2 h5⟩, rfl⟩

theorem strArgs_ok {l : List Val} {l' : List Str} (h : strArgs l = .ok l') : l = l'.map .str := by
  induction l generalizing l' with
  | nil => cases h; rfl
  | cons a r ih =>
    unfold strArgs at h
    split at h
    · cases ‹_ :: _ = []›
    · rename_i s r' e
      cases e
      obtain ⟨x, hx, h⟩ := except_bind_eq_ok.1 h
      cases h
      rw [ih hx]; rfl
    · cases h

/-- C70. A Definition accepts, as native values, exactly the fields of a declared type — listed, or among the words of a text;
any field, if none or an empty list is given. -/
theorem C70_definition (h : initField env c!"definition" args = .ok f) (hv : v ≠ .none) (ph : Phase) (ha : anc ≠ []) :
    process env (n + 1) f v ph false anc = .ok w ↔
      w = v ∧ MeetsConstant args v ∧ ∃ x, v = .field x ∧
        ((∃ b, Gives args c!"valid_fields" b ∧ b.truthy = true) → OneOf args c!"valid_fields" (.str (env.fieldType x))) := by
  have e : initField env c!"definition" args = (do
      let c ← initCommon [c!"valid_fields"] args
      let v ← args.get c!"valid_fields"
      let v ← typesArg v
      return .leaf c (.definition v)) := rfl
  rw [e] at h
  obtain ⟨c, hc, h⟩ := except_bind_eq_ok.1 h
  obtain ⟨a, ha1, h⟩ := except_bind_eq_ok.1 h
  obtain ⟨valid, hvalid, h⟩ := except_bind_eq_ok.1 h
  cases h
  have key : ∀ t, (valid = [] ∨ t ∈ valid) ↔
      ((∃ b, Gives args c!"valid_fields" b ∧ b.truthy = true) → OneOf args c!"valid_fields" (.str t)) := by
    intro t
    have hmem : ∀ {l : List Str}, (∃ m ∈ l.map Val.str, pyEq (.str t) m = true) ↔ t ∈ l := by
      intro l
      constructor
      · rintro ⟨m, hm, he⟩
        obtain ⟨x, hx, rfl⟩ := List.mem_map.1 hm
        rw [pyEq_str_right] at he; cases he; exact hx
      · intro h
        exact ⟨_, List.mem_map.2 ⟨t, h, rfl⟩, by rw [pyEq_str_right]⟩
    rcases get_given ha1 with ⟨rfl, hno⟩ | hg
    · cases hvalid
      exact ⟨fun _ ⟨b, hb, _⟩ => absurd hb (hno b), fun _ => .inl rfl⟩
    · have hgiven : (∃ b, Gives args c!"valid_fields" b ∧ b.truthy = true) ↔ a.truthy = true :=
        ⟨fun ⟨b, hb, ht⟩ => by cases hg.unique hb; exact ht, fun h => ⟨a, hg, h⟩⟩
      rw [hgiven]
      unfold typesArg at hvalid
      split at hvalid
      · rename_i s
        split at hvalid
        · rename_i hall
          cases hvalid
          rw [← oneOf_text hg, show enumOfText s = (splitOn ' ' s).map .str from rfl, hmem]
          constructor
          · rintro (h | h) _
            · exact absurd h (splitOn_ne_nil _ _)
            · exact h
          · intro h
            cases s with
            | nil => exact absurd hall (by decide)
            | cons _ _ => exact .inr (h rfl)
        · cases hvalid
      · rename_i l
        obtain ⟨l', hl', hvalid⟩ := except_bind_eq_ok.1 hvalid
        split at hvalid
        · cases hvalid
          rw [← oneOf_list hg, strArgs_ok hl', hmem]
          cases valid with
          | nil => exact ⟨fun _ h => absurd h (by decide), fun _ => .inl rfl⟩
          | cons x r => exact ⟨fun h _ => h.elim (fun h => (by cases h)) id, fun h => .inr (h rfl)⟩
        · cases hvalid
      · rename_i l
        obtain ⟨l', hl', hvalid⟩ := except_bind_eq_ok.1 hvalid
        split at hvalid
        · cases hvalid
          rw [← oneOf_tuple hg, strArgs_ok hl', hmem]
          cases valid with
          | nil => exact ⟨fun _ h => absurd h (by decide), fun _ => .inl rfl⟩
          | cons x r => exact ⟨fun h _ => h.elim (fun h => (by cases h)) id, fun h => .inr (h rfl)⟩
        · cases hvalid
      · split at hvalid
        · cases hvalid
        · rename_i hf
          cases hvalid
          exact ⟨fun _ h => absurd h hf, fun _ => .inl rfl⟩
  have hnp : NoPre c (.definition valid) := NoPre.mk' (initCommon_plain hc).1 (by simp)
  have hnn : NotNull (.definition valid) v := ⟨hv, by rintro _ _ ⟨⟩⟩
  rw [C71_accepts env _ _ _ _ _ _ _ anc]
  rw [process_leaf_native hnp hnn ha, except_bind_eq_ok]
  simp only [checkConst_eq_ok, validate_definition, initCommon_const hc]
  constructor
  · rintro ⟨_, ⟨rfl, h1⟩, x, rfl, rfl, h2⟩
    exact ⟨rfl, h1, x, rfl, (key _).1 h2⟩
  · rintro ⟨rfl, h1, x, rfl, h2⟩
    exact ⟨_, ⟨rfl, h1⟩, x, rfl, rfl, (key _).2 h2⟩

end

/-! `Map(Integer(), key=Text(), required_keys='a b')` -/

def Ex.mapArgs : Args := [(c!"value", .field (.leaf {} (.integer none none))), (c!"key", .field (.leaf {} (.text none none none true))),
  (c!"required_keys", .val (.str c!"a b"))]

example : initField Ex.env c!"map" Ex.mapArgs =
    .ok (.map {} (some (.leaf {} (.text none none none true))) (.leaf {} (.integer none none)) [.str c!"a", .str c!"b"]) := by rfl

/-- It does not accept a dict without `b`. -/
example (w : Val) : process Ex.env 2 (.map {} (some (.leaf {} (.text none none none true))) (.leaf {} (.integer none none))
    [.str c!"a", .str c!"b"]) (.dict [(.str c!"a", .int 1)]) .inbound false [c!"m"] ≠ .ok w := by
  intro h
  have hi : initField Ex.env c!"map" Ex.mapArgs = .ok (.map {} (some (.leaf {} (.text none none none true)))
    (.leaf {} (.integer none none)) [.str c!"a", .str c!"b"]) := rfl
  replace h := (C70_map (n := 1) (w := w) (anc := [c!"m"]) hi rfl (.inr ⟨_, rfl, rfl⟩) [(.str c!"a", .int 1)] .inbound false (by simp)).1 h
  obtain ⟨es, h1, h2, out, rfl, rfl, h3⟩ := h
  obtain ⟨-, e, he, heq⟩ := h3 [.str c!"a", .str c!"b"] (.inr (.inr ⟨[c!"a", c!"b"], rfl, ⟨rfl, by simp⟩, by decide⟩)) (.str c!"b") (by simp)
  obtain ⟨k', r, k1, k2, -⟩ := h2 0 _ _ rfl
  match es, h1 with
  | [x], _ =>
    cases k1
    cases k2 with
    | field _ hp =>
      cases hp
      have : e = (Val.str c!"a", r) := by
        have hs : strip Ex.env.u c!"a" = c!"a" := by decide
        simpa [dictSet, hs] using he
      subst this
      rw [pyEq_str_right] at heq
      cases heq

/-! `Enumeration('on off', ignored_values='n/a -')` -/

def Ex.switchArgs : Args := [(c!"enumeration", .val (.str c!"on off")), (c!"ignored_values", .val (.str c!"n/a -"))]
def Ex.switch : Field := .leaf {} (.enumeration [.str c!"on", .str c!"off"] [.str c!"n/a", .str c!"-"])

example : initField Ex.env c!"enumeration" Ex.switchArgs = .ok Ex.switch := by rfl

example : process Ex.env 1 Ex.switch (.str c!"-") .inbound true [] = .ok .none := by
  refine (C70_enumeration_ignored (args := Ex.switchArgs) rfl ?_ _ _).2 ⟨rfl, ?_, ?_⟩
  · exact .inr ⟨_, [c!"n/a", c!"-"], ⟨rfl, by simp⟩, rfl, by decide, _, List.mem_cons_of_mem _ List.mem_cons_self, by decide⟩
  · rintro ⟨a, h, -⟩; cases h
  · rintro ⟨a, h, -⟩; cases h

/-! `Tuple((Integer(), Boolean()))`, `Union((Integer(), Boolean()))`, `Token(segments=2)` and `Definition('text integer')` -/

example : initField Ex.env c!"tuple" [(c!"values", .tuple [.field (.leaf {} (.integer none none)), .field (.leaf {} .boolean)])] =
    .ok (.tuple {} [.leaf {} (.integer none none), .leaf {} .boolean]) := by rfl
example : initField Ex.env c!"union" [(c!"fields", .tuple [.field (.leaf {} (.integer none none)), .field (.leaf {} .boolean)])] =
    .ok (.union {} [.leaf {} (.integer none none), .leaf {} .boolean]) := by rfl
example : initField Ex.env c!"token" [(c!"segments", .val (.int 2))] = .ok (.leaf {} (.token (some 2))) := by rfl
example : initField Ex.env c!"definition" [(c!"valid_fields", .val (.str c!"text integer"))] =
    .ok (.leaf {} (.definition [c!"text", c!"integer"])) := by rfl

end Scheme
