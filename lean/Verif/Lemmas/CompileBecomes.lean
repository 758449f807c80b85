import Verif.SpecDeclared
import Verif.Lemmas.CompileSupported

/-!
# The representation of types (lemmas for C75)
-/

namespace PXml

variable {classes : Classes} {built : Built} {keyed : String → String → String → Prop} {d : Dict String Schema} {ctx : Ctx}

theorem strips_idem {d : Dict String Schema} {s t u : Schema} (h : Strips d s d t) (h' : Strips d t d u) : Strips d s d u := by
  obtain ⟨-, rfl⟩ := (Strips.done h.isType).det h'
  exact h

theorem Schema.Scalar.of_strips {s t : Schema} (h : Strips d s d t) : t.Scalar d → s.Scalar d := by
  rintro (⟨ty, h'⟩ | h')
  · exact .inl ⟨ty, strips_idem h h'⟩
  · exact .inr (strips_idem h h')

theorem Schema.Mapping.of_strips {s t : Schema} (h : Strips d s d t) : t.Mapping d → s.Mapping d := by
  rintro (⟨k, v, h'⟩ | ⟨vs, h'⟩)
  · exact .inl ⟨k, v, strips_idem h h'⟩
  · exact .inr ⟨vs, strips_idem h h'⟩

theorem Schema.Becomes.of_strips {p : Place} {t : Schema} {x : Ser} (h : t.Becomes classes keyed d p x) :
    ∀ {s : Schema}, Strips d s d t → s.Becomes classes keyed d p x := by
  induction h with
  | wrapped h1 h2 h3 h4 _ ih => intro s hs; exact .wrapped h1 h2 h3 h4 (ih hs)
  | text h1 h2 => intro s hs; exact .text (h1.of_strips hs) h2
  | attr h1 h2 h3 => intro s hs; exact .attr (h1.of_strips hs) h2 h3
  | elem h1 h2 h3 h4 => intro s hs; exact .elem (h1.of_strips hs) h2 h3 h4
  | attrs h1 h2 h3 => intro s hs; exact .attrs (h1.of_strips hs) h2 h3
  | mapElem h1 h2 h3 h4 => intro s hs; exact .mapElem (h1.of_strips hs) h2 h3 h4
  | raw h1 h2 h3 => intro s hs; exact .raw (strips_idem hs h1) h2 h3
  | model h1 h2 h3 h4 h5 => intro s hs; exact .model (strips_idem hs h1) h2 h3 h4 h5
  | list h1 h2 h3 h4 => intro s hs; exact .list (strips_idem hs h1) h2 h3 h4
  | tuple h1 h2 h3 h4 => intro s hs; exact .tuple (strips_idem hs h1) h2 h3 h4
  | primUnion h1 h2 h3 h4 => intro s hs; exact .primUnion (strips_idem hs h1) h2 h3 h4
  | modelUnion h1 h2 h3 h4 h5 => intro s hs; exact .modelUnion (strips_idem hs h1) h2 h3 h4 h5
  | tagged h1 h2 h3 h4 h5 h6 h7 h8 h9 => intro s hs; exact .tagged (strips_idem hs h1) h2 h3 h4 h5 h6 h7 h8 h9

theorem elemOf_inv (hp : ctx.place.Proper) (hf : ctx.fieldName ≠ some "") {s : Ser} (h : elemOf ctx = .ok s) :
    ∃ tag m, ctx.place.given = some tag ∧ Binds ctx.place.scope m ∧
      s = .elem (ctx.place.elementName tag) m ctx.place.mode ctx.place.computed ctx.place.nillable := by
  unfold elemOf at h
  cases hn : PXml.elementName ctx with
  | error e => rw [hn] at h; cases h
  | ok nm =>
    rw [hn] at h
    cases h
    obtain ⟨tag, h1, h2, h3⟩ := elementName_ok hp hf hn
    simp only [h2]
    exact ⟨tag, _, h1, h3, rfl⟩

theorem attrOf_inv (hp : ctx.place.Proper) (hf : ctx.fieldName ≠ some "") {s : Ser} (h : attrOf ctx = .ok s) :
    ∃ tag, ctx.place.given = some tag ∧ s = .attr (ctx.place.attrName tag) ctx.place.computed := by
  have h1 := attrOf_fits (classes := fun _ => none) hp hf h
  have h2 : s.kind = .attr := by
    unfold attrOf at h
    dsimp only at h
    rw [attrPrefix?_eq] at h
    by_cases hd : ctx.place.attrPrefix? = some ""
    · rw [if_pos hd] at h
      cases h
    · rw [if_neg hd] at h
      split at h
      · cases h
      · rename_i name _
        revert h
        generalize QName.fromAlias name _ _ true = q
        cases q with
        | error e => intro h; cases h
        | ok q => intro h; cases h; rfl
  cases h1 <;> first | (cases h2; done) | exact ⟨_, ‹_›, rfl⟩

theorem primOf_becomes (hp : ctx.place.Proper) (hf : ctx.fieldName ≠ some "") {s : Schema} {x : Ser} (hs : s.Scalar d)
    (h : primOf ctx = .ok x) : s.Becomes classes keyed d ctx.place x := by
  unfold primOf at h
  split at h
  · rename_i hl
    obtain ⟨tag, m, h1, h2, rfl⟩ := elemOf_inv hp hf h
    exact .elem hs hl h1 h2
  · rename_i hl
    obtain ⟨tag, h1, rfl⟩ := attrOf_inv hp hf h
    exact .attr hs hl h1
  · rename_i hl
    cases h
    exact .text hs hl
  · cases h

theorem mappingOf_becomes (hp : ctx.place.Proper) (hf : ctx.fieldName ≠ some "") {s : Schema} {x : Ser} (hs : s.Mapping d)
    (h : mappingOf ctx = .ok x) : s.Becomes classes keyed d ctx.place x := by
  unfold mappingOf at h
  split at h
  · rename_i hl
    unfold mapElemOf at h
    cases hn : PXml.elementName ctx with
    | error e => rw [hn] at h; cases h
    | ok nm =>
      rw [hn] at h
      cases h
      obtain ⟨tag, h1, h2, h3⟩ := elementName_ok hp hf hn
      simp only [h2]
      exact .mapElem hs hl h1 (attrsOf_fits hp)
  · rename_i hl
    cases h
    exact .attrs hs hl (attrsOf_fits hp)
  · cases h
  · cases h

theorem rawOf_becomes (hp : ctx.place.Proper) (hf : ctx.fieldName ≠ some "") {s : Schema} {x : Ser} (hs : Strips d s d (.isInst true))
    (h : rawOf ctx = .ok x) : s.Becomes classes keyed d ctx.place x := by
  have hc : ctx.place.Compound := ((rawOf_iff hp hf).1 ⟨_, h⟩).1
  have h1 := rawOf_fits (classes := fun _ => none) hp hf h
  have h2 := rawOf_kind h
  cases h1 <;> first | (cases h2; done) | exact .raw hs hc ‹_›

theorem proxyOf_becomes (hc : classes.Proper) (hp : ctx.place.Proper) {s : Schema} {cls : String} {r : Bool} {x : Proxy}
    (hs : Strips d s d (.model cls r)) (hl : ctx.place.Compound) (h : proxyOf classes cls ctx = .ok x) :
    s.Becomes classes keyed d ctx.place (.proxy x) := by
  have h1 := proxyOf_fits hc hp h
  have h2 := proxyOf_cls h
  cases h1 with
  | proxy h3 h4 h5 =>
    simp only at h2
    subst h2
    exact .model hs hl h3 h4 h5

theorem Each.rows {α β : Type} {R : α → β → Prop} {as : List α} {bs : List β} (h : Each R as bs) :
    ∃ rows : List (α × β), as = rows.map Prod.fst ∧ bs = rows.map Prod.snd ∧ ∀ r ∈ rows, R r.1 r.2 := by
  induction h with
  | nil => exact ⟨[], rfl, rfl, by simp⟩
  | @cons a b _ _ h _ ih =>
    obtain ⟨rows, rfl, rfl, h3⟩ := ih
    exact ⟨(a, b) :: rows, rfl, rfl, by
      intro r hr
      rcases List.mem_cons.1 hr with rfl | hr
      · exact h
      · exact h3 r hr⟩

theorem taggedLoopOf_keys {rec : Schema → Ctx → Except DefErr Ser} {discr : String} {ctx : Ctx} :
    ∀ {cs : List (Option String × Schema)} {attr attr' : Option String} {acc acc' : Dict String Proxy},
      taggedLoopOf rec built discr ctx cs attr acc = .ok (attr', acc') → Dict.WF acc →
      Dict.WF acc' ∧ (∀ k ∈ Dict.keys acc, k ∈ Dict.keys acc') ∧ ∀ c ∈ cs, ∃ k ∈ Dict.keys acc', c.1 = some k := by
  intro cs
  induction cs with
  | nil => intro attr attr' acc acc' h hw; cases h; exact ⟨hw, fun _ h => h, by simp⟩
  | cons c cs ih =>
    intro attr attr' acc acc' h hw
    obtain ⟨tag, s⟩ := c
    cases tag with
    | none => cases h
    | some tag =>
      simp only [taggedLoopOf] at h
      split at h
      · cases h
      · split at h
        · cases h
        · split at h
          · cases h
          · obtain ⟨h1, h2, h3⟩ := ih h (Dict.wf_set hw _ _)
            have hk : ∀ k, k ∈ Dict.keys acc ∨ k = tag → k ∈ Dict.keys acc' := by
              intro k hk
              apply h2
              rw [Dict.keys_set]
              split
              · rename_i ht
                rcases hk with hk | rfl
                · exact hk
                · exact ht
              · simpa using hk
            refine ⟨h1, fun k h => hk k (.inl h), ?_⟩
            intro c hc
            rcases List.mem_cons.1 hc with rfl | hc
            · exact ⟨tag, hk _ (.inr rfl), rfl⟩
            · exact h3 c hc

theorem choice_of {α β : Type} [Inhabited β] {alts : List (String × α)} {R : String × α → β → Prop} (hn : (alts.map Prod.fst).Nodup)
    (h : ∀ a ∈ alts, ∃ s, R a s) : ∃ choice : String → β, ∀ a ∈ alts, R a (choice a.1) := by
  induction alts with
  | nil => exact ⟨fun _ => default, by simp⟩
  | cons a alts ih =>
    simp only [List.map_cons, List.nodup_cons] at hn
    obtain ⟨f, hf⟩ := ih hn.2 fun a ha => h a (by simp [ha])
    obtain ⟨s, hs⟩ := h a (by simp)
    refine ⟨fun k => if k = a.1 then s else f k, ?_⟩
    intro b hb
    rcases List.mem_cons.1 hb with rfl | hb
    · simpa using hs
    · have : b.1 ≠ a.1 := fun e => hn.1 (List.mem_map.2 ⟨b, hb, e⟩)
      simp only [this, if_false]
      exact hf b hb

/-- The serializer of an accepted definition is the representation of the type. -/
theorem parse_becomes (hc : classes.Proper) : ∀ (n : Nat) (s : Schema) (ctx : Ctx) {x : Ser}, PlainDefs ctx.defs →
    s.Plain → ctx.place.Proper → ctx.fieldName ≠ some "" → parse classes built n s ctx = .ok x →
    s.Becomes classes built.Keyed ctx.defs ctx.place x := by
  intro n
  induction n with
  | zero => intro s ctx x _ _ _ _ h; cases h
  | succ n ih =>
    intro s ctx x hd hs hp hf h
    obtain ⟨k, t, hk, hst, htp, hsel⟩ := parse_sel_plain hd hs h
    cases hk
    cases hsel with
    | wrap h1 h2 h3 h4 =>
      rw [pathNames_named hp h4]
      exact .wrapped h1 h2 (splitPath_segments _) (binds_scope hp)
        ((ih _ (ctx.child ctx.wrapped) hd htp hp.inside hf h3).of_strips hst)
    | prim h => exact primOf_becomes hp hf (.inl ⟨_, hst⟩) h
    | inst h => exact primOf_becomes hp hf (.inr hst) h
    | raw h => exact rawOf_becomes hp hf hst h
    | model h1 h2 hx => exact proxyOf_becomes hc hp hst (compound_of h1 h2) hx
    | dict hpr h => exact mappingOf_becomes hp hf (.inl ⟨_, _, hst⟩) h
    | typedDict hpr h => exact mappingOf_becomes hp hf (.inr ⟨_, hst⟩) h
    | @homog _ item is ctx' inner ht h1 h2 h3 h4 h5 h6 =>
      have hip : item.Plain := by
        rcases ht with rfl | rfl
        · cases htp with | list h => exact h
        · cases htp with | tuple h => exact h _ (by simp)
      obtain ⟨rfl, h7, -⟩ := preprocess_plain hd hip h1
      exact .list hst ht (compound_of h4 h5) (ih _ ctx' hd hip hp hf h6)
    | @hetero _ items ctx' inners ht h1 h2 h3 h4 =>
      have hip : ∀ i ∈ items, i.Plain := by
        rcases ht with rfl | rfl
        · cases htp with | tuple h => exact h
        · cases htp with | call h => exact h
      obtain ⟨rfl, h5⟩ := tupleItems_plain hd hip h1
      obtain ⟨rows, rfl, rfl, h6⟩ := (parseAll_ok h4).rows
      exact .tuple hst ht (compound_of h2 h3) fun r hr => ih _ ctx' hd (hip r.1 (List.mem_map_of_mem hr)) hp hf (h6 r hr)
    | @primUnion choices fams ctx' s0 ss h1 h2 h3 h4 h5 h6 =>
      have hip : ∀ i ∈ choices, i.Plain := by
        cases htp with | union h => exact h
      obtain ⟨rfl, h7⟩ := unionFamilies_plain hd hip h2
      have hall := parseAll_ok h5
      have hkind : ∀ y ∈ s0 :: ss, y.kind = s0.kind := by
        intro y hy
        rcases List.mem_cons.1 hy with rfl | hy
        · rfl
        · exact h6 y hy
      obtain ⟨c0, hc0, t0, ht0, hf0, -⟩ := h7.mem_right .primitive (by simpa using h4)
      obtain ⟨ty, rfl⟩ : ∃ ty, t0 = .prim ty := by cases t0 <;> first | exact ⟨_, rfl⟩ | cases hf0
      obtain ⟨y0, hy0, hp0⟩ := hall.exists_left c0 hc0
      have hpr := parse_prim hd (hip _ hc0) ht0 h1 hp0
      have hk0 := (hkind y0 hy0).symm.trans (primOf_kind hpr)
      have hsc : ∀ c ∈ choices, c.Scalar ctx'.defs := by
        intro c hcm
        obtain ⟨f, hfm, t, ht, hft, hff⟩ := h7.exists_left c hcm
        obtain ⟨y, hy, hpy⟩ := hall.exists_left c hcm
        rcases hff with rfl | rfl | rfl
        · left
          cases t <;> first | exact ⟨_, ht⟩ | cases hft
        · right
          cases t with
          | isInst b =>
            cases b with
            | false => exact ht
            | true =>
              exfalso
              have h8 := rawOf_kind (parse_raw hd (hip _ hcm) ht h1 hpy)
              rw [hkind y hy, hk0] at h8
              unfold scalarKind at h8
              split at h8 <;> cases h8
          | _ => cases hft
        · simp at h3
          exact absurd hfm h3
      cases hall with
      | @cons c _ cs _ h8 _ => exact .primUnion hst hsc h1 (ih c ctx' hd (hip c (by simp)) hp hf h8)
    | @modelUnion choices fams ctx' p ps h1 h2 h3 h4 h5 h6 =>
      have hip : ∀ i ∈ choices, i.Plain := by
        cases htp with | union h => exact h
      obtain ⟨rfl, h7⟩ := unionFamilies_plain hd hip h2
      have hall := parseProxies_ok h6
      have hm : ∀ c ∈ choices, ∀ q, parse classes built n c ctx' = .ok (.proxy q) →
          (∃ r, Strips ctx'.defs c ctx'.defs (.model q.cls r)) ∧ ctx'.location ≠ some .attribute := by
        intro c hcm q hpy
        obtain ⟨f, hfm, t, ht, hft, hff⟩ := h7.exists_left c hcm
        rcases hff with rfl | rfl | rfl
        · simp at h4; exact absurd hfm h4
        · simp at h5; exact absurd hfm h5
        · obtain ⟨cls, r, rfl⟩ : ∃ cls r, t = .model cls r := by cases t <;> first | exact ⟨_, _, rfl⟩ | cases hft
          obtain ⟨h8, q', h9, h10⟩ := parse_model hd (hip _ hcm) ht h1 hpy
          cases h9
          rw [proxyOf_cls h10]
          exact ⟨⟨r, ht⟩, h8⟩
      obtain ⟨c0, hc0, hp0⟩ := hall.mem_right p (by simp)
      have hla := (hm c0 hc0 p hp0).2
      obtain ⟨rows, h8, h9, h10⟩ := hall.rows
      subst h8
      rw [h9]
      refine .modelUnion hst ?_ (compound_of h1 hla) ?_ ?_
      · rintro rfl; simp at hc0
      · intro r hr
        exact (hm r.1 (List.mem_map_of_mem hr) r.2 (h10 r hr)).1
      · intro r hr
        exact ih _ ctx' hd (hip _ (List.mem_map_of_mem hr)) hp hf (h10 r hr)
    | @tagged discr attr choices ctx' alts h1 h2 h3 =>
      have hip : ∀ i ∈ choices, i.2.Plain := by
        cases htp with | tagged h => exact h
      obtain ⟨rfl, h4⟩ := taggedChoices_plain hd (by
        intro s hs
        obtain ⟨c, hc, rfl⟩ := List.mem_map.1 hs
        exact hip c hc) h2
      obtain ⟨-, h5, -⟩ := taggedLoopOf_ok h3
      obtain ⟨h6, -, h7⟩ := taggedLoopOf_keys h3 Dict.wf_nil
      have hne : choices ≠ [] := by
        rintro rfl
        cases h3
      have hm : ∀ a ∈ alts, ∃ s, (some a.1, s) ∈ choices ∧ Strips ctx'.defs s ctx'.defs (.model a.2.cls false) ∧
          built.Keyed a.2.cls discr attr ∧ parse classes built n s ctx' = .ok (.proxy a.2) ∧ ctx'.location ≠ some .attribute := by
        intro a ha
        rcases h5 a ha with h | ⟨s, h8, h9, b, h10, h11⟩
        · simp at h
        · cases h11
          obtain ⟨cls, h12⟩ := h4 s (List.mem_map.2 ⟨_, h8, rfl⟩)
          obtain ⟨h13, q, h14, h15⟩ := parse_model hd (hip _ h8) h12 h1 h9
          cases h14
          refine ⟨s, h8, ?_, discriminatorAttr_ok h10, h9, h13⟩
          rw [proxyOf_cls h15]
          exact h12
      haveI : Inhabited Schema := ⟨.other ""⟩
      obtain ⟨choice, hch⟩ := choice_of h6 hm
      obtain ⟨c0, cs0, rfl⟩ := List.exists_cons_of_ne_nil hne
      obtain ⟨k0, hk0, -⟩ := h7 c0 (by simp)
      obtain ⟨a0, ha0, -⟩ := List.mem_map.1 hk0
      refine .tagged (choice := choice) hst (by simp) (compound_of h1 (hch a0 ha0).2.2.2.2) h6 ?_ (fun a ha => (hch a ha).1)
        (fun a ha => (hch a ha).2.1) (fun a ha => (hch a ha).2.2.1)
        (fun a ha => ih _ ctx' hd (hip _ (hch a ha).1) hp hf (hch a ha).2.2.2.1)
      intro c hc
      obtain ⟨k, hk, e⟩ := h7 c hc
      obtain ⟨a, ha, rfl⟩ := List.mem_map.1 hk
      exact ⟨a, ha, e⟩

end PXml
