import Verif.Lemmas.Lossless
import Verif.Props.Typed

/-! # C86: leaving out `None` or what was not set loses nothing -/

namespace PXml

/-- C86: if an instance comes back from the XML that is written for it with everything in it, it also comes back if what is `None`, or
what was not set, is left out (`exclude_none`, `exclude_unset`, or both): both documents are read as instances equal to it. For
`exclude_unset` fields that were not set have to have their defaults, and the discriminators of unions have to be set. -/
theorem C86_nothing_lost (env : Env) (henv : env.Everywhere (Ser.Resolved env)) (P : Prims) (types : String → Option Types)
    (hT : env.HasTypes types) (hF : env.Follows P types) (hcls : ∀ cls m, env.model cls = some m → m.skipEmpty ≠ some true)
    (wh so : Bool) (cls : String) (v : Val) (h : Sound env P types false {} wh so (.inst cls v))
    (fl : Flags) (hfl : fl.skipEmpty = false)
    (hu : fl.excludeUnset = true → v.UnsetDefault types ∧ DiscriminatorsSet types v) :
    ∃ full less v' v'' N, v'.bare = v.bare ∧ v''.bare = v.bare ∧ ∀ n ≥ N,
      toXmlTree env n {} cls v = .ok full ∧ (fromXmlTree env false n cls full).1 = .ok v' ∧
      toXmlTree env n fl cls v = .ok less ∧ (fromXmlTree env false n cls less).1 = .ok v'' := by
  obtain ⟨full, v', N, h1, h2⟩ := C74_round_trip env henv P types hT hF false {} wh so cls v h
  obtain ⟨less, v'', N', h3, h4⟩ := C74_round_trip env henv P types hT hF false fl wh false cls v
    (sound_less hcls fl hfl v hu h rfl fun _ => .refl)
  exact ⟨full, less, v', v'', max N N', h1, h3, fun n hn =>
    ⟨(h2 n (by omega)).1, (h2 n (by omega)).2, (h4 n (by omega)).1, (h4 n (by omega)).2⟩⟩

/-! ## Non-vacuity -/

namespace TypedEx

mutual
/-- The instance, with the fields that are not the default set. -/
def Doc.made : Doc → Val
  | .mk b n ks => .model "Doc" [("open", .bool b), ("note", n.elim .none .str), ("kids", .list (Doc.mades ks))]
      ("open" :: (if n = none then [] else ["note"]) ++ if ks.length = 0 then [] else ["kids"])
def Doc.mades : List Doc → List Val
  | [] => []
  | k :: ks => k.made :: Doc.mades ks
end

theorem mem_mades {x : Val} : ∀ {ks : List Doc}, x ∈ Doc.mades ks → ∃ k ∈ ks, x = k.made
  | [], h => by simp [Doc.mades] at h
  | k :: ks, h => by
    rw [Doc.mades] at h
    rcases List.mem_cons.1 h with h | h
    · exact ⟨k, by simp, h⟩
    · obtain ⟨k', h1, h2⟩ := mem_mades h
      exact ⟨k', by simp [h1], h2⟩

theorem sound_made {x : Doc} (h : x.Noted) : Sound env prims types false {} true true (.inst "Doc" x.made) := by
  induction h with
  | @mk b n ks hn _ ih =>
    rw [Doc.made]
    refine Sound.plain (rows := [(fields[0], .bool b, some false, true), (fields[1], n.elim .none .str, some n.isNone, false),
      (fields[2], .list (Doc.mades ks), some ks.isEmpty, false)]) (m := doc) (d := defs) rfl rfl (by simp [fields]) (by simp) ?_ ?_ ?_ (by simp) ?_
    · simp [fields]
    · simp
    · simp only [List.forall_mem_cons, fields, List.getElem_cons_zero, List.getElem_cons_succ]
      refine ⟨by simp, ?_, ?_, by simp⟩
      · intro h
        cases n with
        | none => exact ⟨_, rfl, rfl⟩
        | some n => simp at h
      · intro h
        cases ks with
        | nil => exact ⟨_, rfl, by rw [Doc.mades]⟩
        | cons k ks => simp at h
    · simp only [List.forall_mem_cons, fields, List.getElem_cons_zero, List.getElem_cons_succ]
      refine ⟨?_, ?_, ?_, by simp⟩
      · rintro b' h; cases h
        exact .attr (.inr ⟨rfl, _, rfl⟩)
      · rintro b' h; cases h
        cases n with
        | none => exact .elemNone (.inl rfl) (by simp)
        | some n =>
          refine .elem (.inl ⟨rfl, _, rfl⟩) (.inr ?_)
          show encodePrimitive env (jsonBy types (.str n)) ≠ ""
          simp only [jsonBy, encodePrimitive, pyStr]
          exact fun e => hn (by rw [e])
      · rintro b' h; cases h
        cases ks with
        | nil =>
          refine .wrap (so' := false) (by simp) (by simp [ModelSer.flagsIn, doc]) (.listEmpty (.inr (by rw [Doc.mades])) .proxy)
        | cons k ks =>
          refine .wrap (so' := true) (by simp) (by simp [Doc.mades, Val.len?]) ?_
          rw [Doc.mades]
          refine .list (item := .ref "doc") (.default (.done rfl)) (.inl rfl) .proxy ?_
          intro x hx
          obtain ⟨k', hk, rfl⟩ := mem_mades (ks := k :: ks) (by rw [Doc.mades]; exact hx)
          have := ih k' hk
          exact .model rfl (.ref (r := "doc") rfl (.done rfl)) (this.weaken _)

/-- The values inside a document. -/
def Inner (v : Val) : Prop :=
  (∃ d : Doc, v = d.made) ∨ (∃ ks, v = .list (Doc.mades ks)) ∨ (∃ b, v = .bool b) ∨ (∃ s, v = .str s) ∨ v = .none

theorem inner_part {u v : Val} (h : u.Part v) (hv : Inner v) : Inner u := by
  induction h with
  | refl => exact hv
  | item hm _ ih =>
    apply ih
    rcases hv with ⟨⟨b, n, ks⟩, hd⟩ | ⟨ks, hd⟩ | ⟨b, hd⟩ | ⟨s, hd⟩ | hd
    · rw [Doc.made] at hd; cases hd
    · cases hd
      obtain ⟨k, -, rfl⟩ := mem_mades hm
      exact .inl ⟨k, rfl⟩
    · cases hd
    · cases hd
    · cases hd
  | entry hm _ ih =>
    apply ih
    rcases hv with ⟨⟨b, n, ks⟩, hd⟩ | ⟨ks, hd⟩ | ⟨b, hd⟩ | ⟨s, hd⟩ | hd
    · rw [Doc.made] at hd; cases hd
    all_goals cases hd
  | field hm _ ih =>
    apply ih
    rcases hv with ⟨⟨b, n, ks⟩, hd⟩ | ⟨ks, hd⟩ | ⟨b, hd⟩ | ⟨s, hd⟩ | hd
    · rw [Doc.made] at hd
      cases hd
      simp only [List.mem_cons, Prod.mk.injEq, List.not_mem_nil, or_false] at hm
      rcases hm with ⟨-, rfl⟩ | ⟨-, rfl⟩ | ⟨-, rfl⟩
      · exact .inr (.inr (.inl ⟨_, rfl⟩))
      · cases n with
        | none => exact .inr (.inr (.inr (.inr rfl)))
        | some n => exact .inr (.inr (.inr (.inl ⟨_, rfl⟩)))
      · exact .inr (.inl ⟨_, rfl⟩)
    all_goals cases hd

theorem unset_default (x : Doc) : x.made.UnsetDefault types := by
  intro cls fs set hp
  rcases inner_part hp (.inl ⟨x, rfl⟩) with ⟨⟨b, n, ks⟩, hd⟩ | ⟨ks, hd⟩ | ⟨b, hd⟩ | ⟨s, hd⟩ | hd
  · rw [Doc.made] at hd
    cases hd
    show (∀ t ∈ fields, _) ∧ ∀ c ∈ ([] : List Derived), _
    refine ⟨?_, by simp⟩
    simp only [fields, List.forall_mem_cons]
    refine ⟨by simp, fun hn => ⟨.inr (.item .elem), _, rfl, fun y hy => ?_⟩,
      fun hk => ⟨.inr (.wrap (.homog .proxy)), _, rfl, fun y hy => ?_⟩, by simp⟩
    · cases n with
      | none => simp at hy; rw [hy]
      | some n => simp at hn
    · cases ks with
      | nil => simp at hy; rw [hy]; simp [Doc.mades]
      | cons k ks => simp at hk
  all_goals cases hd

theorem discriminators_set (v : Val) : DiscriminatorsSet types v := by
  intro cls
  by_cases hc : cls = "Doc"
  · subst hc
    show (∀ t ∈ fields, _) ∧ ∀ c ∈ ([] : List Derived), _
    refine ⟨?_, by simp⟩
    simp only [fields, List.forall_mem_cons]
    refine ⟨⟨trivial, by simp [Ser.subs]⟩, ⟨trivial, by simp [Ser.subs]⟩, ⟨trivial, ?_⟩, by simp⟩
    intro t ht
    simp only [Ser.subs, List.mem_singleton] at ht
    subst ht
    refine ⟨trivial, fun t ht => ?_⟩
    simp only [Ser.subs, List.mem_singleton] at ht
    subst ht
    exact ⟨trivial, by simp [Ser.subs]⟩
  · have : types cls = none := if_neg hc
    rw [this]
    trivial

/-- Non-vacuity of C86: all documents of the example, of any width and depth, with `exclude_none` and `exclude_unset`. -/
example (x : Doc) (h : x.Noted) (a b : Bool) : ∃ full less v' v'' N, v'.bare = x.made.bare ∧ v''.bare = x.made.bare ∧ ∀ n ≥ N,
    toXmlTree env n {} "Doc" x.made = .ok full ∧ (fromXmlTree env false n "Doc" full).1 = .ok v' ∧
    toXmlTree env n { excludeNone := a, excludeUnset := b } "Doc" x.made = .ok less ∧
    (fromXmlTree env false n "Doc" less).1 = .ok v'' :=
  C86_nothing_lost env resolved prims types hasTypes follows
    (by intro cls m hm; have hm' : (if cls = "Doc" then some doc else none) = some m := hm; split at hm' <;> cases hm'; simp [doc])
    true true "Doc" x.made (sound_made h) _ rfl fun _ => ⟨unset_default x, discriminators_set _⟩

end TypedEx

/-! ## Where the conditions are needed -/

namespace Ex

/-- `class Cat: kind: Literal['cat'] = attr(default='cat'); name: Optional[str] = attr(default=None)` -/
def plainCat : ModelSer where
  name := "Cat"
  elementName := "cat"
  body := .fields [{ name := "kind", ser := .attr "kind" false }, { name := "name", ser := .attr "name" false }]

/-- `class Flat: pet: Optional[Union[Cat, ...]] = element(tag='pet', discriminator='kind', default=None)` -/
def flat : ModelSer where
  name := "Flat"
  elementName := "flat"
  body := .fields [{ name := "pet", ser := .tagged false "kind" "kind" .strict [("cat", { cls := "Cat", name := "pet" })] }]

def flatEnv : Env where
  backend := .lxml
  model cls := if cls = "Flat" then some flat else if cls = "Cat" then some plainCat else none
  validate cls d := match d with
    | .dict fs =>
      if cls = "Flat" then check cls [("pet", false)] fs
      else .ok ([("kind", (Dict.get? fs "kind").getD (.str "cat")), ("name", (Dict.get? fs "name").getD .none)],
        fs.map Prod.fst)
    | _ => .error ⟨cls, []⟩
  toJsonable := json
  reprOf _ := "..."

/-- C86, the hypothesis on discriminators is needed: with `exclude_unset` a discriminator that is left to its default is not written, and
the instance is lost. -/
theorem C86_discriminator_needed :
    let v : Val := .model "Flat" [("pet", .model "Cat" [("kind", .str "cat"), ("name", .str "Tom")] ["name"])] ["pet"]
    ((toXmlTree flatEnv 9 {} "Flat" v).bind fun t => (fromXmlTree flatEnv false 9 "Flat" t).1) =
      .ok (.model "Flat" [("pet", .model "Cat" [("kind", .str "cat"), ("name", .str "Tom")] ["kind", "name"])] ["pet"]) ∧
    ((toXmlTree flatEnv 9 { excludeUnset := true } "Flat" v).bind fun t => (fromXmlTree flatEnv false 9 "Flat" t).1) =
      .ok (.model "Flat" [("pet", .none)] []) := by
  refine ⟨?_, ?_⟩ <;> kernel_rfl

end Ex

end PXml
