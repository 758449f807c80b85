import Verif.SpecStable
import Verif.Lemmas.TypedProgram

/-!
# Reading, writing and reading again, in terms of declarations (lemmas for C80)
-/

namespace PXml

variable {env : Env} {P : Prims} {classes : Classes} {B : Behind} {types : String → Option Types}
  {dicts eas : Bool} {fl : Flags} {wh : Bool}

theorem declared_only (ht : ∀ cls, DeclaredTypes env classes classes.Keyed B cls (types cls))
    (hO : env.OnlyDeclared P classes B) : env.Only P types where
  fields cls d ts us h data fields set hv := by
    obtain ⟨cd, r, m, fs, cs, h1, h2, -, -, -, h6, -, h8, h8'⟩ := (ht cls).fields_inv h
    obtain ⟨value, h9, h10⟩ := hO.fields cls cd r d fs cs h1 h2 h6 data fields set hv
    refine ⟨value, ?_, fun t htm => ?_⟩
    · rw [h9, each_map_eq (g := fun t : Typed => (t.field.name, value t.field.name)) h8 (fun f t h => by rw [h.2.1]),
        each_map_eq (g := fun c : Derived => (c.field.name, c.get (ts.map fun t => (t.field.name, value t.field.name)))) h8'
          (fun c u h => by rw [h.1.name, h.2.2.2])]
    · obtain ⟨f, hf, h11⟩ := h8.mem_right t htm
      rw [h11.2.2.2.1, h11.2.2.2.2.1, ← h11.2.2.1, h11.2.1]
      exact h10 f hf
  root cls d s ty df h y fields set hv := by
    obtain ⟨cd, r, m, infos, h1, h2, -, -, -, h6, -, rfl, -⟩ := (ht cls).root_inv h
    exact hO.root cls cd r d ty infos h1 h2 h6 y fields set hv
  prim := hO.prim

/-- Types of which all values come back have representations of which all values come back. -/
theorem returns_restores (ht : ∀ cls, DeclaredTypes env classes classes.Keyed B cls (types cls))
    (hneat : ∀ cls cd, classes cls = some cd → ∃ r d, Strips [] cd.schema d (.model cls r) ∧ cd.Neat classes d)
    {d : Dict String Schema} {p : Place} {s : Schema} (h : s.Returns P classes B dicts fl d p) (hc : p.computed = false) :
    ∀ {x : Ser}, s.Becomes classes classes.Keyed d p x → Restores P types dicts fl d x s := by
  induction h with
  | @leaf p s h1 h2 =>
    intro x hx
    obtain ⟨y, hy, h3⟩ := becomes_leaf h1 h2 hx
    have : Restores P types dicts fl d y s := by
      rcases hy with ⟨-, rfl⟩ | ⟨-, _, -, rfl⟩ | ⟨-, _, _, -, rfl⟩ <;> rw [hc]
      · exact .text
      · exact .attr
      · exact .elem
    rcases h3 with rfl | rfl
    · exact this
    · rw [hc]; exact .primUnion hy.leaf this
  | @dict p s k vt h0 h1 h2 h3 =>
    intro x hx
    rcases becomes_mapping (.inl ⟨k, vt, h1⟩) h2 hx with ⟨-, a, ha, rfl⟩ | ⟨-, a, tag, ha, -, rfl⟩
    · exact .attrs h0 (ha.2.2.2.trans hc) (ha.2.2.1.trans h3) h1
    · exact .mapElem h0 (ha.2.2.2.trans hc) (ha.2.2.1.trans h3) h1
  | raw h1 h2 =>
    intro x hx
    obtain ⟨tag, -, rfl⟩ := becomes_raw h1 h2 hx
    rw [hc]
    exact .raw h1
  | model h1 h2 =>
    intro x hx
    obtain ⟨q, rfl, rfl, h3, -⟩ := becomes_model h1 h2 hx
    exact .model (h3.trans hc) h1
  | @union p s c cs cls r h1 h2 h3 h4 =>
    intro x hx
    obtain ⟨title, rows, rfl, h5, h6, h7⟩ := becomes_union h1 (by simp) h2 h3 hx
    rw [hc]
    have hpw : rows.Pairwise fun a b => a.2.cls ≠ b.2.cls ∧ a.2.name ≠ b.2.name := by
      rw [h5, List.pairwise_map] at h4
      refine h4.imp_of_mem fun {a b} ha hb hab => ⟨fun e => ?_, fun e => ?_⟩
      · obtain ⟨r, h8⟩ := h6 a ha
        obtain ⟨r', h9⟩ := h6 b hb
        rw [← e] at h9
        exact hab.1 _ _ _ h8 h9
      · have o1 := slots_occupied (h7 a ha) h3 (.child a.2.name) (by simp [Ser.slots])
        have o2 := slots_occupied (h7 b hb) h3 (.child b.2.name) (by simp [Ser.slots])
        exact hab.2 _ o1 (e ▸ o2)
    refine .union h1 (fun q hq => ?_) ?_ ?_
    · obtain ⟨w, hw, rfl⟩ := List.mem_map.1 hq
      obtain ⟨b, h8⟩ := h6 w hw
      obtain ⟨q', e, -, h9, -⟩ := becomes_model h8 h3 (h7 w hw)
      cases e
      exact ⟨h9.trans hc, w.1, by rw [h5]; exact List.mem_map_of_mem hw, b, h8⟩
    · rw [List.map_map, List.nodup_iff_pairwise_ne, List.pairwise_map]
      exact hpw.imp fun h => h.1
    · rw [List.map_map, List.nodup_iff_pairwise_ne, List.pairwise_map]
      exact hpw.imp fun h => h.2
  | @tagged p s discr cs h1 h2 h3 =>
    intro x hx
    obtain ⟨discr', attr, alts, choice, e, rfl, h4, h5, h6, h7, h8, h9⟩ := becomes_tagged h1 h2 hx
    cases e
    rw [hc]
    refine .tagged h1 h4 fun a ha => ?_
    obtain ⟨h10, cd, r, d', fs, cs1, f, h11, h12, h13, h14, h14', h15, h16, h17⟩ := h3 _ (h6 a ha) a.1 a.2.cls rfl (h7 a ha)
    obtain ⟨q', e, -, h18, -⟩ := becomes_model (h7 a ha) h2 (h9 a ha)
    cases e
    obtain ⟨r', d2, h19, h20⟩ := hneat _ _ h11
    obtain ⟨rfl, -⟩ := h19.det h12
    refine ⟨h10, h18.trans hc, ⟨_, h6 a ha, _, h7 a ha⟩, ?_⟩
    obtain ⟨ts, us, -, h26, h27, -⟩ := (ht a.2.cls).fields_of h11 h12 h20 h13
    obtain ⟨t, htm, h28⟩ := h27.exists_left f h14
    obtain ⟨cd', r2, d3, fs', cs', k1, k2, k3, k4⟩ := h8 a ha
    rw [h11] at k1
    cases k1
    obtain ⟨rfl, -⟩ := h12.det k2
    rw [h13] at k3
    cases k3
    unfold ClassDef.Neat at h20
    rw [h13] at h20
    simp only at h20
    have hfind : (fs.filter fun f => !f.noXml).find? (fun f => f.name = discr) = some f := by
      have hnd : ((fs.filter fun f => !f.noXml).map FieldDef.name).Nodup :=
        ((List.filter_sublist.map _).trans (List.sublist_append_left _ _)).nodup h20.2.2.1
      have := find?_key FieldDef.name hnd (List.mem_filter.2 ⟨h14, by simp [h14']⟩)
      rw [h15] at this
      exact this
    rw [hfind] at k4
    obtain ⟨k5, k6, g, k7, rfl⟩ := k4
    have hser : t.field.ser = .attr ((f.place cd).attrName g) false := by
      rcases becomes_scalar (classes := classes) (keyed := classes.Keyed) k6 (by rw [k5]; simp) (h28.2.2.2.2.2 h14').2 with ⟨e, -⟩ | ⟨-, g', k8, k9⟩ | ⟨e, -⟩
      · rw [k5] at e; cases e
      · rw [k7] at k8
        cases k8
        exact k9
      · rw [k5] at e; cases e
    refine ⟨_, ts, us, t, h26, htm, h28.1.trans h14', hser, h28.2.1.trans h15, ?_, ?_⟩
    · rw [h28.2.2.2.1]; exact h16
    · rw [h28.2.2.2.2.1, h15]; exact h17
  | list h1 h2 h3 h4 _ ih =>
    intro x hx
    obtain ⟨title, y, rfl, h5⟩ := becomes_list h1 h2 h3 hx
    rw [hc]
    exact .list h1 h2 (becomes_item h4 h3 h5) (ih hc h5)
  | @tuple p s t items h1 h2 h3 h4 h5 h6 _ ih =>
    intro x hx
    obtain ⟨title, rows, rfl, rfl, h7⟩ := becomes_tuple h1 h2 h3 hx
    rw [hc]
    have := Restores.tuple (P := P) (types := types) (dicts := dicts) (fl := fl) (title := title) (rows := rows.map fun r => (r.2, r.1)) h1
      (by simpa [Function.comp_def] using h2) (by simpa using h4)
      (fun r hr => by
        obtain ⟨w, hw, rfl⟩ := List.mem_map.1 hr
        exact becomes_item (h5 _ (List.mem_map_of_mem hw)) h3 (h7 w hw))
      (fun r hr => by
        obtain ⟨w, hw, rfl⟩ := List.mem_map.1 hr
        exact h6 _ (List.mem_map_of_mem hw))
      (fun r hr => by
        obtain ⟨w, hw, rfl⟩ := List.mem_map.1 hr
        exact ih _ (List.mem_map_of_mem hw) hc (h7 w hw))
    simpa [Function.comp_def] using this
  | wrapped h1 _ ih =>
    intro x hx
    obtain ⟨path, parts, m, y, h3, h4, rfl, h5⟩ := becomes_wrapped h1 hx
    rw [hc]
    cases parts with
    | nil => exact absurd rfl h4.1
    | cons t parts => exact .wrap (ih hc h5)

theorem declared_stable (ht : ∀ cls, DeclaredTypes env classes classes.Keyed B cls (types cls))
    (hm : ∀ cls m, env.model cls = some m → (classes cls).isSome = true) (hS : classes.Stable env P B dicts eas fl wh) :
    env.Stable P types dicts eas fl wh where
  flags := hS.flags
  typed cls m h := by
    obtain ⟨cd, hcd⟩ := Option.isSome_iff_exists.1 (hm cls m h)
    obtain ⟨h1, h1', r, d, h2, h3, -⟩ := hS.classes cls cd hcd
    rcases ht cls with ⟨-, hn⟩ | ⟨cd', r', d', m', h4, h5, h6, h7, h8, h9⟩
    · exact absurd ⟨cd, r, d, hcd, h2, h3⟩ hn
    · rw [hcd] at h4
      cases h4
      rw [h] at h7
      cases h7
      refine ⟨?_, by rw [h8.1]; exact h1, by rw [h8.2]; exact h1'⟩
      rcases h9 with ⟨_, _, _, _, -, e, -⟩ | ⟨_, _, _, -, e, -⟩ <;> rw [e] <;> rfl
  fields cls d ts us h t htm hvis := by
    obtain ⟨cd, r, m, fs, cs, h1, h2, h3, h4, h5, h6, h7, h8, -⟩ := (ht cls).fields_inv h
    obtain ⟨-, -, r', d', h9, -, h10⟩ := hS.classes cls cd h1
    obtain ⟨rfl, -⟩ := h2.det h9
    rw [h6] at h10
    obtain ⟨f, hf, h11⟩ := h8.mem_right t htm
    have hno : f.noXml = false := h11.1.symm.trans hvis
    obtain ⟨h12, h13, h14, h15⟩ := h10.1 f hf hno
    obtain ⟨k1, k2⟩ := h11.2.2.2.2.2 hno
    have hneat := fun cls cd h => (hS.classes cls cd h).2.2.imp fun r h => h.imp fun d h => And.intro h.1 h.2.1
    refine ⟨k1.exclude.trans h12, ?_, ?_, ?_⟩
    · rw [h11.2.2.2.1]; exact returns_restores ht hneat h13 rfl k2
    · exact fun hu => becomes_silent (h14 hu) rfl k2
    · rw [h11.2.2.2.1, h11.2.2.2.2.1]
      intro x hx
      obtain ⟨void, h16⟩ := h15 x hx
      exact ⟨void, worth_good ht h16 rfl _ k2⟩
  computed cls d ts us h c hc := by
    obtain ⟨cd, r, m, fs, cs, h1, h2, h3, h4, h5, h6, h7, h8, h8'⟩ := (ht cls).fields_inv h
    obtain ⟨-, -, r', d', h9, -, h10⟩ := hS.classes cls cd h1
    obtain ⟨rfl, -⟩ := h2.det h9
    rw [h6] at h10
    obtain ⟨e, he, h11⟩ := h8'.mem_right c hc
    obtain ⟨h12, h13, h14⟩ := h10.2 e he
    have hst := becomes_stored h11.2.1
    refine ⟨h12, h11.1.exclude, fun hu => becomes_silent (h13 hu) rfl hst, fun value hv => ?_⟩
    obtain ⟨void, h15⟩ := h14 value fun f hf => by
      obtain ⟨t, htm, h16⟩ := h8.exists_left f hf
      have := hv t htm
      rw [h16.2.2.2.1, h16.2.2.2.2.1, h16.2.1] at this
      exact this
    refine ⟨void, ?_⟩
    rw [h11.2.2.1, h11.2.2.2, ← each_map_eq (g := fun t : Typed => (t.field.name, value t.field.name)) h8 (f := fun f : FieldDef => (f.name, value f.name)) (fun f t h => by rw [h.2.1])]
    exact worth_good ht h15 rfl _ hst
  root cls d s ty df h := by
    obtain ⟨cd, r, m, infos, h1, h2, h3, h4, h5, h6, h7, rfl, h8⟩ := (ht cls).root_inv h
    obtain ⟨-, -, r', d', h9, -, h10⟩ := hS.classes cls cd h1
    obtain ⟨rfl, -⟩ := h2.det h9
    rw [h6] at h10
    have hneat := fun cls cd h => (hS.classes cls cd h).2.2.imp fun r h => h.imp fun d h => And.intro h.1 h.2.1
    refine ⟨returns_restores ht hneat h10.1 rfl h8, fun x hx => ?_⟩
    obtain ⟨h11, void, h12⟩ := h10.2 x hx
    exact ⟨h11, void, worth_good ht h12 rfl _ h8⟩

end PXml
