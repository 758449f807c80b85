import Verif.Props.Excluded

/-!
# C92: a discriminator does not change what is read
-/

namespace PXml

open Elem

/-- The class with this tag accepts an element only if its discriminator is the tag: the field `discr` is read from the attribute `a`, and the
validation of the class requires its value to be the tag (in Python: `discr: Literal[tag] = attr(name=a)`, without a default). -/
def Proxy.Insists (env : Env) (discr a tag : String) (p : Proxy) : Prop :=
  ∃ m fs f, env.model p.cls = some m ∧ m.body = .fields fs ∧ f ∈ fs ∧ f.name = discr ∧ f.ser = .attr a false ∧
    (fs.map fun f => f.alias.getD f.name).Nodup ∧
    ∀ d r, env.validate p.cls (.dict d) = .ok r → Dict.get? d (f.alias.getD f.name) = some (.str tag)

/-! ## Helpers -/

/-- An attribute stays as it is, or is taken. -/
theorem taken_rel (a : String) : ElemRel (fun e e' => (e.attrib.getD []).WF →
    (e'.attrib.getD []).WF ∧ (e'.getAttrib a = e.getAttrib a ∨ e'.getAttrib a = none)) where
  refl e := fun h => ⟨h, .inl rfl⟩
  trans h1 h2 := by
    intro h
    obtain ⟨h, h1⟩ := h1 h
    obtain ⟨h, h2⟩ := h2 h
    refine ⟨h, ?_⟩
    rcases h2 with h2 | h2
    · rcases h1 with h1 | h1
      · exact .inl (h2.trans h1)
      · exact .inr (h2.trans h1)
    · exact .inr h2
  popText e := fun h => ⟨h, .inl rfl⟩
  popAttrib e k := by
    intro h
    unfold popAttrib
    split
    · simp only [getAttrib, Option.getD_some]
      refine ⟨Dict.wf_erase h k, ?_⟩
      by_cases hk : k = a
      · subst hk; exact .inr (Dict.get?_erase_self h _)
      · exact .inl (Dict.get?_erase_ne _ hk)
    · exact ⟨h, .inl rfl⟩
  popAttributes e := fun _ => ⟨by simp [popAttributes, Dict.WF, Dict.keys], .inr rfl⟩
  search e tag mode step := by
    intro h
    obtain ⟨l, n, h1, _⟩ := search_spec e tag mode step
    rw [h1]; exact ⟨h, .inl rfl⟩
  child e i c c' _ _ := fun h => ⟨h, .inl rfl⟩
  stepForward e _ := fun h => ⟨h, .inl rfl⟩
  applySnapshot e s h := h
  hollow e i c _ := fun h => ⟨h, .inl rfl⟩

theorem eq_of_nodup_map {α β : Type} {f : α → β} {l : List α} (h : (l.map f).Nodup) {a b : α} (ha : a ∈ l) (hb : b ∈ l) (hab : f a = f b) : a = b := by
  induction l with
  | nil => cases ha
  | cons x l ih =>
    simp only [List.map_cons, List.nodup_cons, List.mem_map, not_exists, not_and] at h
    rcases List.mem_cons.1 ha with rfl | ha'
    · rcases List.mem_cons.1 hb with rfl | hb
      · rfl
      · exact absurd hab.symm (h.1 b hb)
    · rcases List.mem_cons.1 hb with hbx | hb
      · subst hbx; exact absurd hab (h.1 a ha')
      · exact ih h.2 ha' hb

/-- The value of the discriminator after reading the fields: what was there, or nothing. -/
theorem deserFields_discr {env : Env} (hno : env.NoValidators) (eas : Bool) (n : Nat) (a k : String) (fs : List Field)
    (hnv : ∀ f ∈ fs, f.validator = none) (f : Field) (hk : k = f.alias.getD f.name) (hf : f.ser = .attr a false)
    (huniq : ∀ g ∈ fs, g.alias.getD g.name = k → g = f) (res : Dict String Val) (errs : Dict ErrKey VErr) (st : St) (x : Option String)
    (hwf : (st.el.attrib.getD []).WF) (hx : st.el.getAttrib a = x ∨ st.el.getAttrib a = none) (hres : Dict.get? res k = none ∨ ∃ s, x = some s ∧ Dict.get? res k = some (.str s))
    (r : Dict String Val × Dict ErrKey VErr) (h : (deserFields (deser env eas n) fs res errs st).1 = .ok r) :
    Dict.get? r.1 k = none ∨ ∃ s, x = some s ∧ Dict.get? r.1 k = some (.str s) := by
  induction fs generalizing res errs st with
  | nil =>
    simp only [deserFields, Out.ok.injEq] at h
    subst h
    exact hres
  | cons g fs ih =>
    have ih := ih (fun f hf => hnv f (by simp [hf])) (fun g hg => huniq g (by simp [hg]))
    obtain ⟨hwf', hrel⟩ := deser_rel (taken_rel a) env (fun cls m fs hm hb f hf v hv => by rw [hno cls m fs hm hb f hf] at hv; cases hv) eas n g.ser
      [.name g.name] { st with sm := st.sm.set [.name g.name] st.el.line } hwf
    have hx' : ∀ {st' : St}, (st'.el.getAttrib a = st.el.getAttrib a ∨ st'.el.getAttrib a = none) →
        st'.el.getAttrib a = x ∨ st'.el.getAttrib a = none := by
      intro st' h
      rcases h with h | h
      · rw [h]; exact hx
      · exact .inr h
    unfold deserFields at h
    simp only [hnv g (by simp)] at h
    cases hr : deser env eas n g.ser [.name g.name] { st with sm := st.sm.set [.name g.name] st.el.line } with
    | mk o st' =>
      rw [hr] at hrel hwf' h
      cases o with
      | ok v =>
        refine ih _ _ _ hwf' (hx' hrel) ?_ h
        by_cases hv : v.isNone
        · simpa [hv] using hres
        · simp only [hv, Bool.false_eq_true, if_false]
          by_cases hkey : g.alias.getD g.name = k
          · have hgf := huniq g (by simp) hkey
            subst hgf
            rw [hkey, Dict.get?_set_self]
            refine .inr ?_
            rw [hf] at hr
            cases n with
            | zero => simp [deser] at hr
            | succ n =>
              change deserStep env eas (deser env eas n) n (.attr a false) _ _ = _ at hr
              simp only [deserStep, Bool.false_eq_true, if_false] at hr
              have hp := popAttrib_fst st.el a
              cases hpa : st.el.popAttrib a with
              | mk o1 e1 =>
                rw [hpa] at hr hp
                cases o1 with
                | none => simp only [Prod.mk.injEq, Out.ok.injEq] at hr; rw [← hr.1] at hv; exact absurd rfl hv
                | some s =>
                  simp only [Prod.mk.injEq, Out.ok.injEq] at hr
                  simp only at hp
                  rcases hx with hx | hx
                  · exact ⟨s, by rw [← hx, ← hp], by rw [hr.1]⟩
                  · rw [hx] at hp; cases hp
          · rw [Dict.get?_set_ne _ _ hkey]; exact hres
      | verr e => exact ih _ _ _ hwf' (hx' hrel) hres h
      | crash e => cases h
      | diverge => cases h

/-- A class that insists on another tag does not accept the element. -/
theorem insists_rejects {env : Env} (hno : env.NoValidators) (eas : Bool) (n : Nat) (loc : Loc) (discr a tag : String) (p : Proxy)
    (hp : p.Insists env discr a tag) (hc : p.computed = false) (st : St) (c : Elem) (hcand : st.el.candidate p.name p.mode = some c) (hwf : (c.attrib.getD []).WF)
    (hne : c.getAttrib a ≠ some tag) (v : Val) (hv : v ≠ .none) : (deser env eas n (.proxy p) loc st).1 ≠ .ok v := by
  obtain ⟨m, fs, f, hm, hb, hf, -, hser, hnd, hval⟩ := hp
  cases n with
  | zero => simp [deser]
  | succ n =>
    intro h
    obtain ⟨i, el', h1, h2⟩ := candidate_some hcand true
    change (deserStep env eas (deser env eas n) n (.proxy p) loc st).1 = _ at h
    simp only [deserStep, hm, hc, Bool.false_eq_true, if_false, popElement, h1, onChild, h2] at h
    obtain ⟨hcw, hnil⟩ := (taken_rel a).isNil c hwf
    cases hn : c.isNil with
    | mk b ec =>
      rw [hn] at hnil hcw h
      cases b with
      | true => simp only [Out.ok.injEq] at h; exact hv h.symm
      | false =>
        simp only [deserModel, hb] at h
        cases hr : deserFields (deser env eas n) fs [] [] ⟨ec, st.sm.set loc c.line⟩ with
        | mk o st' =>
          rw [hr] at h
          cases o with
          | ok r =>
            have hk := deserFields_discr hno eas n a _ fs (fun g hg => hno _ m fs hm hb g hg) f rfl hser
              (fun g hg hgk => by
                exact eq_of_nodup_map hnd hg hf hgk) [] [] ⟨ec, st.sm.set loc c.line⟩ (c.getAttrib a) hcw hnil (.inl rfl) r (by rw [hr])
            obtain ⟨res, errs⟩ := r
            simp only at h
            split at h
            · simp only [validateModel] at h
              have hbad : ∀ w, env.validate p.cls (.dict res) ≠ .ok w := by
                intro w hw
                have := hval _ _ hw
                rcases hk with hk | ⟨s, hs, hk⟩
                · rw [this] at hk; cases hk
                · rw [this] at hk
                  injection hk with hk
                  injection hk with hk
                  exact hne (hk ▸ hs)
              cases hw : env.validate p.cls (.dict res) with
              | ok w => exact hbad w hw
              | error e =>
                rw [hw] at h
                simp only at h
                split at h <;> cases h
            · cases h
          | verr e => cases h
          | crash e => cases h
          | diverge => cases h

/-! ## C92 -/

/-- C92: a discriminated union and the plain union of the same classes over one element name, in every search mode, read the same values, if the
classes insist on their tags, and leave the same things unread. -/
theorem C92_same_values (env : Env) (hno : env.NoValidators) (eas : Bool) (n : Nat) (loc : Loc) (title : Title) (discr a name : String)
    (mode : Mode) (alts : List (String × Proxy)) (htags : (alts.map Prod.fst).Nodup)
    (hname : ∀ x ∈ alts, x.2.name = name ∧ x.2.mode = mode ∧ x.2.computed = false) (hins : ∀ x ∈ alts, x.2.Insists env discr a x.1)
    (st : St) (hwf : ∀ c ∈ st.el.elements, (c.attrib.getD []).WF)
    (hret : ∀ x ∈ alts, (deser env eas (n + 1) (.proxy x.2) loc st).1.Returns) (v : Val) (hv : v ≠ .none) :
    ((deser env eas (n + 2) (.tagged false discr a mode alts) loc st).1 = .ok v ↔
      (deser env eas (n + 2) (.modelUnion title false (alts.map Prod.snd)) loc st).1 = .ok v) ∧
    ((deser env eas (n + 2) (.tagged false discr a mode alts) loc st).1 = .ok v →
      (deser env eas (n + 2) (.tagged false discr a mode alts) loc st).2.el =
        (deser env eas (n + 2) (.modelUnion title false (alts.map Prod.snd)) loc st).2.el) := by
  have hr : env.ValidatorsRead := Env.NoValidators.read hno
  have only := C11_only_success env hr eas (n + 1) title (alts.map Prod.snd) loc st v hv
  cases hc : st.el.candidate name mode with
  | none =>
    have h1 := (C33_absent_any_mode env eas (n + 1) loc st discr a name mode alts (fun x hx => (hname x hx).1) (fun c h => by rw [hc] at h; cases h)).1
    have habs : ∀ q ∈ alts.map Prod.snd, (deser env eas (n + 1) (.proxy q) loc st).1 = .ok .none := by
      intro q hq
      obtain ⟨x, hx, rfl⟩ := List.mem_map.1 hq
      obtain ⟨m, _, _, hm, _⟩ := hins x hx
      obtain ⟨h2, h3, h4⟩ := hname x hx
      change (deserStep env eas (deser env eas n) n (.proxy x.2) loc st).1 = _
      simp only [deserStep, hm, h4, Bool.false_eq_true, if_false, popElement, h2, h3, candidate_none hc true]
    have h2 := (C12_absent env hr eas (n + 1) title (alts.map Prod.snd) loc st habs).1
    have hv' : Val.none ≠ v := fun h => hv h.symm
    refine ⟨⟨fun h => ?_, fun h => ?_⟩, fun h => ?_⟩
    · rw [h1] at h; injection h with h; exact absurd h hv'
    · rw [h2] at h; injection h with h; exact absurd h hv'
    · rw [h1] at h; injection h with h; exact absurd h hv'
  | some c =>
    obtain ⟨i, el', hs, hi⟩ := candidate_some hc true
    have hcw : (c.attrib.getD []).WF := by
      obtain ⟨l, k, h1, h2, _⟩ := search_spec st.el name mode true
      rw [hs] at h1
      simp only at h1
      subst h1
      exact hwf c (h2.mem_iff.1 (List.mem_of_getElem? hi))
    -- a class with another tag does not accept it
    have rej : ∀ x ∈ alts, c.getAttrib a ≠ some x.1 → ∀ w, w ≠ Val.none → (deser env eas (n + 1) (.proxy x.2) loc st).1 ≠ .ok w := by
      intro x hx hne w hw
      obtain ⟨h2, h3, h4⟩ := hname x hx
      exact insists_rejects hno eas (n + 1) loc discr a x.1 x.2 (hins x hx) h4 st c (by rw [h2, h3]; exact hc) hcw hne w hw
    by_cases hsel : ∃ x ∈ alts, c.getAttrib a = some x.1
    · obtain ⟨⟨tag, p⟩, hx, hattr⟩ := hsel
      obtain ⟨h2, h3, h4⟩ := hname _ hx
      obtain ⟨m, _, _, hm, _⟩ := hins _ hx
      have e1 := C33_selects env eas n loc st discr a name tag mode alts p c hx htags (fun x hx => (hname x hx).1) h3 h4 (by rw [hm]; rfl) hc hattr
      rw [e1]
      have first : (deser env eas (n + 1) (.proxy p) loc st).1 = .ok v →
          (deser env eas (n + 2) (.modelUnion title false (alts.map Prod.snd)) loc st).1 = .ok v ∧
          (deser env eas (n + 2) (.modelUnion title false (alts.map Prod.snd)) loc st).2.el = (deser env eas (n + 1) (.proxy p) loc st).2.el := by
        intro h
        obtain ⟨pre, post, hsplit⟩ := List.append_of_mem hx
        refine C11_first_success env hr eas (n + 1) title (alts.map Prod.snd) loc st (pre.map Prod.snd) p (post.map Prod.snd) v
          (by rw [hsplit]; simp) ?_ h hv
        intro q hq
        obtain ⟨x, hxp, rfl⟩ := List.mem_map.1 hq
        have hxa : x ∈ alts := by rw [hsplit]; simp [hxp]
        have hne : c.getAttrib a ≠ some x.1 := by
          rw [hattr]
          intro h
          injection h with h
          rw [hsplit, List.map_append, List.map_cons, List.nodup_append] at htags
          exact htags.2.2 x.1 (List.mem_map_of_mem hxp) tag (by simp) h.symm
        rcases hret x hxa with ⟨w, hw⟩ | ⟨e, he⟩
        · by_cases hwn : w = .none
          · exact .inl (hwn ▸ hw)
          · exact absurd hw (rej x hxa hne w hwn)
        · exact .inr ⟨e, he⟩
      refine ⟨⟨fun h => (first h).1, fun h => ?_⟩, fun h => (first h).2.symm⟩
      obtain ⟨pre, q, post, hsplit, _, hq⟩ := only h
      have hqm : q ∈ alts.map Prod.snd := by rw [hsplit]; simp
      obtain ⟨x, hxa, rfl⟩ := List.mem_map.1 hqm
      by_cases hne : c.getAttrib a = some x.1
      · rw [hattr] at hne
        injection hne with hne
        have : (tag, p) = x := eq_of_nodup_map htags hx hxa hne
        rw [← this] at hq
        exact hq
      · exact absurd hq (rej x hxa hne v hv)
    · have h1 := (C33_absent_any_mode env eas (n + 1) loc st discr a name mode alts (fun x hx => (hname x hx).1) (fun c' h x hx ht => by
        rw [hc] at h; injection h with h; subst h; exact hsel ⟨x, hx, ht⟩)).1
      have hv' : Val.none ≠ v := fun h => hv h.symm
      refine ⟨⟨fun h => ?_, fun h => ?_⟩, fun h => ?_⟩
      · rw [h1] at h; injection h with h; exact absurd h hv'
      · obtain ⟨pre, q, post, hsplit, _, hq⟩ := only h
        have hqm : q ∈ alts.map Prod.snd := by rw [hsplit]; simp
        obtain ⟨x, hxa, rfl⟩ := List.mem_map.1 hqm
        exact absurd hq (rej x hxa (fun hne => hsel ⟨x, hxa, hne⟩) v hv)
      · rw [h1] at h; injection h with h; exact absurd h hv'

/-- C92, writing: an instance of one of the classes, whose encoding carries the tag of this class, is written alike by the discriminated and
by the plain union, into every element and with all flags. -/
theorem C92_same_output (env : Env) (n : Nat) (fl : Flags) (title : Title) (discr a : String) (mode : Mode) (computed : Bool)
    (alts : List (String × Proxy)) (hcls : (alts.map fun x => x.2.cls).Nodup) (tag : String) (p : Proxy) (hp : Dict.get? alts tag = some p)
    (htag : tag ≠ "") (fs : List (String × Val)) (set : List String) (d : Dict String Val) (hd : d.get? discr = some (.str tag)) (el : Elem) :
    ser env (n + 1) fl (.tagged computed discr a mode alts) el (.model p.cls fs set) (.dict d) =
      ser env (n + 1) fl (.modelUnion title computed (alts.map Prod.snd)) el (.model p.cls fs set) (.dict d) := by
  have hmem := Dict.mem_of_get? hp
  have hfind : (alts.map Prod.snd).find? (fun q => q.cls = p.cls) = some p := by
    clear hp hd
    induction alts with
    | nil => cases hmem
    | cons x l ih =>
      simp only [List.map_cons, List.nodup_cons, List.mem_map, not_exists, not_and] at hcls
      rcases List.mem_cons.1 hmem with rfl | hmem
      · simp
      · have hne : x.2.cls ≠ p.cls := fun h => hcls.1 _ hmem h.symm
        simp only [List.map_cons, List.find?_cons, hne, decide_false]
        exact ih hcls.2 hmem
  simp only [ser, serStep, hd, htag, if_false, hp, hfind]

/-! ## Non-vacuity -/

namespace Ex

/-- The classes `Dog` and `Cat` with `kind: Literal['dog'] = attr()` and `kind: Literal['cat'] = attr()`. -/
def kennelEnv : Env :=
  { env with validate := fun cls d =>
      match d with
      | .dict fs =>
        match Dict.get? fs "kind" with
        | some (.str k) => if k = (if cls = "Dog" then "dog" else "cat") then validate cls d else .error ⟨cls, []⟩
        | _ => .error ⟨cls, []⟩
      | _ => .error ⟨cls, []⟩ }

def kennelAlts (mode : Mode) : List (String × Proxy) :=
  [("dog", { cls := "Dog", name := "pet", mode := mode }), ("cat", { cls := "Cat", name := "pet", mode := mode })]

theorem kennel_insists (mode : Mode) : ∀ x ∈ kennelAlts mode, x.2.Insists kennelEnv "kind" "kind" x.1 := by
  have hval : ∀ cls d r, kennelEnv.validate cls (.dict d) = .ok r → Dict.get? d "kind" = some (.str (if cls = "Dog" then "dog" else "cat")) := by
    intro cls d r h
    simp only [kennelEnv] at h
    split at h
    · rename_i k hk
      by_cases hkk : k = (if cls = "Dog" then "dog" else "cat")
      · rw [hk, hkk]
      · rw [if_neg hkk] at h; cases h
    · cases h
  intro x hx
  simp only [kennelAlts, List.mem_cons, List.not_mem_nil, or_false] at hx
  rcases hx with rfl | rfl
  · exact ⟨dog, _, { name := "kind", ser := .attr "kind" false }, rfl, rfl, by simp, rfl, rfl, by decide, fun d r h => hval "Dog" d r h⟩
  · exact ⟨cat, _, { name := "kind", ser := .attr "kind" false }, rfl, rfl, by simp, rfl, rfl, by decide, fun d r h => hval "Cat" d r h⟩

/-- A cat after a foreign element. -/
def kennelDoc : Node := el "owner" none [el "x", el "pet" none [el "lives" (some "9")] [("kind", "cat")]]

/-- All hypotheses of `C92_same_values` hold of the document, and the unions read a cat from it. -/
example : kennelEnv.NoValidators ∧ ((kennelAlts .ordered).map Prod.fst).Nodup ∧
    (∀ x ∈ kennelAlts .ordered, x.2.name = "pet" ∧ x.2.mode = .ordered ∧ x.2.computed = false) ∧
    (∀ c ∈ (fromNative .lxml kennelDoc).elements, (c.attrib.getD []).WF) ∧
    (∀ x ∈ kennelAlts .ordered, (deser kennelEnv false 9 (.proxy x.2) [] ⟨fromNative .lxml kennelDoc, []⟩).1.Returns) := by
  refine ⟨noValidators (b := .lxml), by decide, by simp [kennelAlts], ?_, ?_⟩
  · simp [fromNative, fromNativeList, kennelDoc, el, Node.isComment, Dict.WF, Dict.keys]
  · intro x hx
    simp only [kennelAlts, List.mem_cons, List.not_mem_nil, or_false] at hx
    rcases hx with rfl | rfl
    · exact .inr ⟨_, rfl⟩
    · exact .inl ⟨.model "Cat" [("kind", .str "cat"), ("lives", .str "9")] ["kind", "lives"], by kernel_rfl⟩

/-- The hypotheses of `C92_same_output` for a cat. -/
example : ((kennelAlts .strict).map fun x => x.2.cls).Nodup ∧
    Dict.get? (kennelAlts .strict) "cat" = some { cls := "Cat", name := "pet", mode := .strict } ∧
    ∃ e, ser kennelEnv 9 {} (.tagged false "kind" "kind" .strict (kennelAlts .strict)) { tag := "owner" }
      (.model "Cat" [("kind", .str "cat"), ("lives", .str "9")] ["kind", "lives"]) (.dict [("kind", .str "cat"), ("lives", .str "9")]) = .ok e ∧
      e.elements.map Elem.tag = ["pet"] :=
  ⟨by decide, rfl, _, rfl, rfl⟩

end Ex

/-- The condition is needed: a plain union of classes that do not insist on their tags reads a dog where the discriminated one reads a cat. -/
theorem C92_insisting_needed :
    let doc := fromNative .lxml (Ex.el "owner" none [Ex.el "pet" none [Ex.el "name" (some "Tom")] [("kind", "cat")]])
    (deser (Ex.env) false 9 (.tagged false "kind" "kind" .strict (Ex.kennelAlts .strict)) [] ⟨doc, []⟩).1 ≠
      (deser (Ex.env) false 9 (.modelUnion "Owner" false ((Ex.kennelAlts .strict).map Prod.snd)) [] ⟨doc, []⟩).1 ∧
    (deser (Ex.env) false 9 (.modelUnion "Owner" false ((Ex.kennelAlts .strict).map Prod.snd)) [] ⟨doc, []⟩).1 =
      .ok (.model "Dog" [("kind", .str "cat"), ("name", .str "Tom")] ["kind", "name"]) := by
  have h2 : (deser (Ex.env) false 9 (.modelUnion "Owner" false ((Ex.kennelAlts .strict).map Prod.snd)) []
      ⟨fromNative .lxml (Ex.el "owner" none [Ex.el "pet" none [Ex.el "name" (some "Tom")] [("kind", "cat")]]), []⟩).1 =
      .ok (.model "Dog" [("kind", .str "cat"), ("name", .str "Tom")] ["kind", "name"]) := by kernel_rfl
  refine ⟨?_, h2⟩
  rw [h2]
  have h1 : ((deser (Ex.env) false 9 (.tagged false "kind" "kind" .strict (Ex.kennelAlts .strict)) []
      ⟨fromNative .lxml (Ex.el "owner" none [Ex.el "pet" none [Ex.el "name" (some "Tom")] [("kind", "cat")]]), []⟩).1 matches .verr _) = true := by
    kernel_rfl
  intro h
  rw [h] at h1
  cases h1

end PXml
