import Verif.Lemmas.CompileProgram
import Verif.Props.RoundTrip

/-!
# Programs (C57, C70)

Exactly which classes a program can complete, and what holds for all documents once it has.
-/

namespace PXml

section
variable {classes : Classes}

/-- Rebuilding classes one after the other. -/
def rebuilds (cs : List String) : List Event := cs.map fun c => .rebuild c true

theorem rebuilds_ne {cs : List String} {c : String} : ∀ e ∈ rebuilds cs, ∀ k, e ≠ .statement c k := by
  intro e he k
  obtain ⟨x, -, rfl⟩ := List.mem_map.1 he
  simp

/-- If building the class succeeds, rebuilding it leaves it with a serializer. -/
theorem rebuild_some {n : Nat} {b : Built} {c : String} {cd : ClassDef} {m : ModelSer} (hcd : classes c = some cd)
    (hcomp : cd.complete = true) (h : buildClass classes b n cd = .ok (some m)) :
    (history classes n [.rebuild c true] b c).isSome = true := by
  have e : { cd with complete := cd.complete && true } = cd := by rw [hcomp]; cases cd; cases hcomp; rfl
  unfold history
  simp only [Event.run]
  cases hb : b c with
  | some m' => simp [history, hb]
  | none =>
    simp only [Option.isNone_none, Bool.true_and, if_true, setSerializer, hcd, e, h, history]
    rfl

theorem agree_le {n n' : Nat} {es es' : List Event}
    (h : ∀ c, (history classes n es .empty c).isSome = true → (history classes n' es' .empty c).isSome = true) :
    (history classes n es .empty).Le (history classes n' es' .empty) := by
  intro c m hm
  obtain ⟨m', hm'⟩ := Option.isSome_iff_exists.1 (h c (by rw [hm]; rfl))
  rw [hm', history_agree n n' es es' c m m' hm hm']

/-- More fuel and more classes: rebuilding the same classes succeeds for no fewer of them. -/
theorem rebuilds_dom {n n' : Nat} (hn : n ≤ n') : ∀ (R : List String) (es es' : List Event),
    (∀ c, (history classes n es .empty c).isSome = true → (history classes n' es' .empty c).isSome = true) →
    ∀ c, (history classes n (es ++ rebuilds R) .empty c).isSome = true →
      (history classes n' (es' ++ rebuilds R) .empty c).isSome = true
  | [], es, es', h, c, hc => by
    simp only [rebuilds, List.map_nil, List.append_nil] at hc ⊢
    exact h c hc
  | r :: R, es, es', h, c, hc => by
    have e1 : ∀ l : List Event, l ++ rebuilds (r :: R) = (l ++ [.rebuild r true]) ++ rebuilds R := by simp [rebuilds]
    rw [e1] at hc ⊢
    refine rebuilds_dom hn R _ _ ?_ c hc
    clear hc c
    intro c hc
    have hstay : ∀ m, history classes n' es' .empty c = some m →
        (history classes n' (es' ++ [.rebuild r true]) .empty c).isSome = true := by
      intro m hm
      rw [history_append, C56_stays classes n' c m [.rebuild r true] _ (rebuilds_ne (cs := [r])) hm]
      rfl
    obtain ⟨m, hm⟩ := Option.isSome_iff_exists.1 hc
    have hold : ∀ m, history classes n es .empty c = some m →
        (history classes n' (es' ++ [.rebuild r true]) .empty c).isSome = true := by
      intro m hm
      obtain ⟨m', hm'⟩ := Option.isSome_iff_exists.1 (h c (by rw [hm]; rfl))
      exact hstay m' hm'
    rw [history_append, history] at hm
    cases hr : (Event.rebuild r true).run classes n (history classes n es .empty) with
    | error e => rw [hr] at hm; exact hold m hm
    | ok b1 =>
      rw [hr] at hm
      rcases run_cases hr c m hm with hb | ⟨rfl, cd, h1, h2, -, h4⟩
      · exact hold m hb
      · rw [history_append]
        exact rebuild_some h1 h2 (buildClass_keeps classes (agree_le h) n' cd _ (buildClass_fuel classes _ hn cd _ h4))

/-- Programs can be joined. -/
theorem rebuilds_join {n n' : Nat} {R R' : List String} : ∃ k S, n ≤ k ∧ n' ≤ k ∧ ∀ c,
    ((history classes n (rebuilds R) .empty c).isSome = true ∨ (history classes n' (rebuilds R') .empty c).isSome = true) →
    (history classes k (rebuilds S) .empty c).isSome = true := by
  have e : rebuilds (R ++ R') = rebuilds R ++ rebuilds R' := by simp [rebuilds]
  refine ⟨max n n', R ++ R', Nat.le_max_left _ _, Nat.le_max_right _ _, fun c h => ?_⟩
  rw [e]
  rcases h with h | h
  · have := rebuilds_dom (classes := classes) (Nat.le_max_left n n') R [] [] (fun c h => h) c h
    rw [List.nil_append] at this
    obtain ⟨m, hm⟩ := Option.isSome_iff_exists.1 this
    rw [history_append, C56_stays classes _ c m _ _ rebuilds_ne hm]
    rfl
  · exact rebuilds_dom (classes := classes) (Nat.le_max_right n n') R' [] (rebuilds R) (fun c h => by cases h) c h

theorem rebuilds_all {P : String → Prop} : ∀ {L : List String},
    (∀ c ∈ L, P c → ∃ n R, (history classes n (rebuilds R) .empty c).isSome = true) →
    ∃ n R, ∀ c ∈ L, P c → (history classes n (rebuilds R) .empty c).isSome = true
  | [], _ => ⟨0, [], fun c hc => by simp at hc⟩
  | c :: L, h => by
    obtain ⟨n, R, hR⟩ := rebuilds_all (P := P) (L := L) fun c hc => h c (by simp [hc])
    by_cases hP : P c
    · obtain ⟨n', R', hR'⟩ := h c (by simp) hP
      obtain ⟨k, S, -, -, hS⟩ := rebuilds_join (classes := classes) (n := n) (n' := n') (R := R) (R' := R')
      refine ⟨k, S, fun x hx hPx => hS x ?_⟩
      rcases List.mem_cons.1 hx with rfl | hx
      · exact .inr hR'
      · exact .inl (hR x hx hPx)
    · refine ⟨n, R, fun x hx hPx => ?_⟩
      rcases List.mem_cons.1 hx with rfl | hx
      · exact absurd hPx hP
      · exact hR x hx hPx

open Classical in
/-- The chosen classes are enough to build the class: there is a set of serializers for them only with which it is built. -/
theorem chosen_enough (hst : classes.Standard) {cls : String} {cd : ClassDef} {r : Bool} {d : Dict String Schema}
    (hcd : classes cls = some cd) (hcomp : cd.complete = true) (hs : Strips [] cd.schema d (.model cls r))
    (hsup : cd.Supported classes classes.Keyed d) {n1 : Nat} {es : List Event}
    (hch : ∀ c, cd.Chooses d c → (history classes n1 es .empty c).isSome = true) :
    ∃ n2 m, ∀ n ≥ n2, ∀ b : Built, (∀ c m, cd.Chooses d c → history classes n1 es .empty c = some m → b c = some m) →
      buildClass classes b n cd = .ok (some m) := by
  let b0 : Built := fun c => if cd.Chooses d c then history classes n1 es .empty c else none
  have hfrom : b0.From classes := by
    intro c m hm
    simp only [b0] at hm
    split at hm
    · exact history_from es empty_from c m hm
    · cases hm
  have hsup0 : cd.Supported classes b0.Keyed d := hsup.mono fun c hc a b hk =>
    (hfrom.keyed_iff hst).2 ⟨by simp only [b0, if_pos hc]; exact Option.isSome_iff_exists.1 (hch c hc), hk⟩
  obtain ⟨hp, hpl, r', d', hs', hd'⟩ := hst cls cd hcd
  obtain ⟨rfl, -⟩ := hs'.det hs
  obtain ⟨n2, m, hm⟩ := (C28_class_accepted hst.proper cls cd hcd hcomp hp hpl r _ hs hd').2 hsup0
  refine ⟨n2, m, fun n hn b hb => buildClass_keeps classes (built := b0) ?_ n cd _ (buildClass_fuel classes _ hn cd _ hm)⟩
  intro c m hm
  simp only [b0] at hm
  split at hm
  · rename_i hc; exact hb c m hc hm
  · cases hm

/-- A constructible class can be built by rebuilding classes in a suitable order. -/
theorem constructible_rebuilds (hst : classes.Standard) {cls : String} (h : Constructible classes cls) :
    ∃ n R, (history classes n (rebuilds R) .empty cls).isSome = true := by
  induction h with
  | @mk cls cd r d hcd hcomp hs hsup _ ih =>
    obtain ⟨L, hL⟩ := hsup.cover
    obtain ⟨n1, R1, hR1⟩ := rebuilds_all (P := fun c => cd.Chooses d c) (L := L) fun c _ hc => ih c hc
    have hch : ∀ c, cd.Chooses d c → (history classes n1 (rebuilds R1) .empty c).isSome = true := fun c hc => hR1 c (hL c hc) hc
    obtain ⟨n2, m, hm⟩ := chosen_enough hst hcd hcomp hs hsup hch
    refine ⟨max n1 n2, R1 ++ [cls], ?_⟩
    have e : rebuilds (R1 ++ [cls]) = rebuilds R1 ++ [.rebuild cls true] := by simp [rebuilds]
    rw [e, history_append]
    refine rebuild_some hcd hcomp (hm _ (Nat.le_max_right _ _) _ fun c m _ hcm => ?_)
    exact agree_le (rebuilds_dom (classes := classes) (Nat.le_max_left n1 n2) R1 [] [] fun c h => h) c m hcm

/-- Stating classes with unresolved references builds nothing. -/
theorem statements_empty {n : Nat} : ∀ L : List String, history classes n (L.map fun c => .statement c false) .empty = .empty
  | [] => rfl
  | c :: L => by
    simp only [List.map_cons, history, Event.run, setSerializer]
    cases hc : classes c with
    | none => exact statements_empty L
    | some cd =>
      simp only [buildClass_incomplete (cd := { cd with complete := cd.complete && false }) (by simp)]
      have e : (fun x => if x = c then none else Built.empty x) = Built.empty := by
        funext x; simp [Built.empty]
      rw [e]
      exact statements_empty L

theorem exists_nodup (R : List String) : ∃ L : List String, L.Nodup ∧ ∀ x ∈ R, x ∈ L := by
  induction R with
  | nil => exact ⟨[], List.nodup_nil, fun x h => h⟩
  | cons r R ih =>
    obtain ⟨L, h1, h2⟩ := ih
    by_cases hr : r ∈ L
    · refine ⟨L, h1, fun x hx => ?_⟩
      rcases List.mem_cons.1 hx with rfl | hx
      · exact hr
      · exact h2 x hx
    · refine ⟨r :: L, List.nodup_cons.2 ⟨hr, h1⟩, fun x hx => ?_⟩
      rcases List.mem_cons.1 hx with rfl | hx
      · simp
      · simp [h2 x hx]

theorem program_statements : ∀ {L acc : List String}, (acc ++ L).Nodup → Program (acc.map fun c => .statement c false) →
    Program ((acc ++ L).map fun c => .statement c false)
  | [], acc, _, h => by simpa using h
  | c :: L, acc, hnd, h => by
    have e : acc ++ c :: L = (acc ++ [c]) ++ L := by simp
    rw [e] at hnd ⊢
    refine program_statements hnd ?_
    rw [List.map_append]
    refine .statement h fun k' hk => ?_
    obtain ⟨x, hx, hxe⟩ := List.mem_map.1 hk
    cases hxe
    have := (List.nodup_append.1 (List.nodup_append.1 hnd).1).2.2 c hx c (by simp)
    exact this rfl

theorem program_rebuilds : ∀ {R : List String} {es : List Event}, Program es → (∀ c ∈ R, .statement c false ∈ es) →
    Program (es ++ rebuilds R)
  | [], es, h, _ => by simpa [rebuilds] using h
  | r :: R, es, h, hm => by
    have e : es ++ rebuilds (r :: R) = (es ++ [.rebuild r true]) ++ rebuilds R := by simp [rebuilds]
    rw [e]
    exact program_rebuilds (.rebuild h (hm r (by simp))) fun c hc => List.mem_append_left _ (hm c (by simp [hc]))

theorem exists_program (n : Nat) (R : List String) : ∃ es, Program es ∧
    history classes n es .empty = history classes n (rebuilds R) .empty := by
  obtain ⟨L, h1, h2⟩ := exists_nodup R
  refine ⟨(L.map fun c => .statement c false) ++ rebuilds R, program_rebuilds ?_ fun c hc => ?_, ?_⟩
  · exact program_statements (acc := []) h1 .nil
  · exact List.mem_map.2 ⟨c, h2 c hc, rfl⟩
  · rw [history_append, statements_empty]

/-- What has been built is constructible. -/
theorem history_constructible (hst : classes.Standard) {n : Nat} : ∀ (es : List Event) {b : Built}, b.From classes →
    (∀ c m, b c = some m → Constructible classes c) → ∀ c m, history classes n es b c = some m → Constructible classes c
  | [], _, _, hb => hb
  | e :: es, b, hfrom, hb => by
    unfold history
    cases hr : e.run classes n b with
    | error _ => exact history_constructible hst es hfrom hb
    | ok b' =>
      have hfrom' : b'.From classes := by
        have := history_from (n := n) [e] hfrom
        simpa only [history, hr] using this
      refine history_constructible hst es hfrom' fun c m hm => ?_
      rcases run_cases hr c m hm with h | ⟨rfl, cd, h1, h2, -, h4⟩
      · exact hb c m h
      · obtain ⟨hp, hpl, r, d, hs, hd⟩ := hst _ cd h1
        have hsup := (C28_class_accepted hst.proper _ cd h1 h2 hp hpl r d hs hd).1 ⟨n, m, h4⟩
        refine .mk h1 h2 hs (hsup.mono fun c _ a b' hk => ((hfrom.keyed_iff hst).1 hk).2) fun c hc => ?_
        obtain ⟨a, b', hk⟩ := hsup.chosen c hc
        obtain ⟨m', hm'⟩ := ((hfrom.keyed_iff hst).1 hk).1
        exact hb c m' hm'

/-- C57: exactly the constructible classes can be completed by a program: those all of whose fields have an XML representation and
that do not depend on themselves through a chain of discriminated unions. -/
theorem C57_constructible (hst : classes.Standard) (cls : String) :
    (∃ n es, Program es ∧ (history classes n es .empty cls).isSome = true) ↔ Constructible classes cls := by
  constructor
  · rintro ⟨n, es, -, h⟩
    obtain ⟨m, hm⟩ := Option.isSome_iff_exists.1 h
    exact history_constructible hst es empty_from (fun _ _ h => by cases h) cls m hm
  · intro h
    obtain ⟨n, R, hR⟩ := constructible_rebuilds hst h
    obtain ⟨es, h1, h2⟩ := exists_program (classes := classes) n R
    exact ⟨n, es, h1, by rw [h2]; exact hR⟩

/-- C57: a class whose fields have an XML representation is completed by a class statement or `model_rebuild` with all forward
references resolved exactly if at this moment the classes among which it chooses by a discriminator are complete.  Classes
that it refers to in any other way, itself included, need not be. -/
theorem C57_when (hst : classes.Standard) (cls : String) (cd : ClassDef) (r : Bool) (d : Dict String Schema)
    (hcd : classes cls = some cd) (hcomp : cd.complete = true) (hs : Strips [] cd.schema d (.model cls r))
    (hsup : cd.Supported classes classes.Keyed d) :
    ∃ N, ∀ n ≥ N, ∀ (before : List Event) (e : Event), e.cls = cls → e.complete = true →
      history classes n before .empty cls = none →
      ((history classes n (before ++ [e]) .empty cls).isSome = true ↔
        ∀ c, cd.Chooses d c → (history classes n before .empty c).isSome = true) := by
  have fwd : ∀ n before (e : Event), history classes n before .empty cls = none →
      (history classes n (before ++ [e]) .empty cls).isSome = true →
      ∀ c, cd.Chooses d c → (history classes n before .empty c).isSome = true := by
    intro n before e hnone h c hc
    obtain ⟨m, hm⟩ := Option.isSome_iff_exists.1 h
    rw [history_append, history] at hm
    cases hr : e.run classes n (history classes n before .empty) with
    | error _ => rw [hr] at hm; simp only [history] at hm; rw [hnone] at hm; cases hm
    | ok b =>
      rw [hr] at hm
      rcases run_cases hr cls m hm with hb | ⟨-, cd', h1, h2, -, h4⟩
      · rw [hnone] at hb; cases hb
      · rw [hcd] at h1
        cases h1
        obtain ⟨hp, hpl, r', d', hs', hd'⟩ := hst _ cd hcd
        obtain ⟨rfl, -⟩ := hs'.det hs
        have hsup := (C28_class_accepted hst.proper _ cd hcd h2 hp hpl r _ hs hd').1 ⟨n, m, h4⟩
        obtain ⟨a, b', hk⟩ := hsup.chosen c hc
        exact Option.isSome_iff_exists.2 (((history_from before empty_from).keyed_iff hst).1 hk).1
  by_cases hall : ∀ c, cd.Chooses d c → Constructible classes c
  · obtain ⟨L, hL⟩ := hsup.cover
    obtain ⟨n1, R1, hR1⟩ := rebuilds_all (P := fun c => cd.Chooses d c) (L := L) fun c _ hc => constructible_rebuilds hst (hall c hc)
    have hch : ∀ c, cd.Chooses d c → (history classes n1 (rebuilds R1) .empty c).isSome = true := fun c hc => hR1 c (hL c hc) hc
    obtain ⟨n2, m, hm⟩ := chosen_enough hst hcd hcomp hs hsup hch
    refine ⟨n2, fun n hn before e he hk hnone => ⟨fwd n before e hnone, fun hb => ?_⟩⟩
    have hbuild := hm n hn (history classes n before .empty) fun c m hc hcm => by
      obtain ⟨m', hm'⟩ := Option.isSome_iff_exists.1 (hb c hc)
      rw [hm', history_agree n1 n (rebuilds R1) before c m m' hcm hm']
    have ec : { cd with complete := cd.complete && true } = cd := by rw [hcomp]; cases cd; cases hcomp; rfl
    rw [history_append]
    cases e with
    | rebuild c k => cases he; cases hk; exact rebuild_some hcd hcomp hbuild
    | statement c k =>
      cases he
      cases hk
      simp only [Event.cls] at hcd ⊢
      simp only [history, Event.run, setSerializer, hcd, ec, hbuild, if_true]
      rfl
  · refine ⟨0, fun n _ before e _ _ hnone => ⟨fwd n before e hnone, fun hb => absurd ?_ hall⟩⟩
    intro c hc
    obtain ⟨m, hm⟩ := Option.isSome_iff_exists.1 (hb c hc)
    exact history_constructible hst before empty_from (fun _ _ h => by cases h) c m hm

/-- C57: in particular, classes that choose among each other by discriminators in a circle are never complete. -/
theorem C57_circle (hst : classes.Standard) (circle : String → Prop)
    (h : ∀ c, circle c → ∀ cd r d, classes c = some cd → Strips [] cd.schema d (.model c r) → ∃ c', circle c' ∧ cd.Chooses d c')
    (cls : String) (hc : circle cls) (n : Nat) (es : List Event) : history classes n es .empty cls = none := by
  cases hm : history classes n es .empty cls with
  | none => rfl
  | some m =>
    have hcon := history_constructible hst es empty_from (fun _ _ h => by cases h) cls m hm
    clear hm
    exfalso
    induction hcon with
    | mk h1 _ h2 _ _ ih =>
      obtain ⟨c', h3, h4⟩ := h _ hc _ _ _ h1 h2
      exact ih c' h4 h3

/-! ## From declarations to documents -/

/-- When all classes of the program are complete, its environment is one of accepted classes. -/
theorem history_accepts (hst : classes.Standard) (n : Nat) (es : List Event) (env : Env) (henv : env.model = history classes n es .empty)
    (hall : ∀ c, (classes c).isSome = true → (history classes n es .empty c).isSome = true) : env.Accepts classes := by
  refine ⟨fun cls m hm => ?_, fun cls hcls => by rw [henv]; exact hall cls hcls⟩
  rw [henv] at hm
  obtain ⟨cd, b, k, h1, h2, h3⟩ := history_from es empty_from cls m hm
  obtain ⟨hp, -, r, d, hs, -⟩ := hst cls cd h1
  exact ⟨cd, r, d, b, k, h1, hp, hs, h3⟩

/-- C70: the classes of a program are all completed by some program exactly if they are constructible. -/
theorem C70_program_exists (hst : classes.Standard) (names : List String) (hn : ∀ c, (classes c).isSome = true → c ∈ names) :
    (∃ n es, Program es ∧ ∀ c, (classes c).isSome = true → (history classes n es .empty c).isSome = true) ↔
      ∀ c, (classes c).isSome = true → Constructible classes c := by
  constructor
  · rintro ⟨n, es, h1, h2⟩ c hc
    exact (C57_constructible hst c).1 ⟨n, es, h1, h2 c hc⟩
  · intro h
    obtain ⟨n, R, hR⟩ := rebuilds_all (P := fun c => (classes c).isSome = true) (L := names)
      fun c _ hc => constructible_rebuilds hst (h c hc)
    obtain ⟨es, h1, h2⟩ := exists_program (classes := classes) n R
    exact ⟨n, es, h1, fun c hc => by rw [h2]; exact hR c (hn c hc) hc⟩

/-- C70: once all classes of a program are complete, whatever the order, every instance that is handed through comes back, reading
any document raises nothing but validation errors (and `ParsingError` for a root element of another name), and nothing an own
document contains is left over. -/
theorem C70_program_works (hst : classes.Standard) (n : Nat) (es : List Event) (env : Env)
    (henv : env.model = history classes n es .empty)
    (hall : ∀ c, (classes c).isSome = true → (history classes n es .empty c).isSome = true) :
    (∀ wh so eas fl cls v v', Handed env eas fl wh so (.model cls v (env.toJsonable v) v') →
      ∃ tree N, ∀ k ≥ N, toXmlTree env k fl cls v = .ok tree ∧ (fromXmlTree env eas k cls tree).1 = .ok v') ∧
    (∀ so eas fl cls v v', Handed env eas fl true so (.model cls v (env.toJsonable v) v') →
      ∃ tree N, ∀ k ≥ N, toXmlTree env k fl cls v = .ok tree ∧ ∀ path, (fromXmlTree env eas k cls tree).2.getUnbound path = []) ∧
    (env.ValidatorsRead → env.ValidatorsRaise → ∀ eas k cls cd root x, classes cls = some cd →
      ((fromXmlTree env eas k cls root).1 = .crash x ↔ root.tag ≠ cd.rootName ∧ x = .parsingError)) := by
  have ha := history_accepts hst n es env henv hall
  have hres := ha.resolved hst.proper
  refine ⟨fun wh so eas fl cls v v' h => C01_round_trip env hres eas fl cls v v' h,
    fun so eas fl cls v v' h => C02_nothing_left env hres eas fl cls v v' h, ?_⟩
  intro hv hr eas k cls cd root x hcd
  obtain ⟨m, hm⟩ := Option.isSome_iff_exists.1 (ha.2 cls (by rw [hcd]; rfl))
  obtain ⟨cd', r, d, b, j, h1, h2, h3, h4⟩ := ha.1 cls m hm
  rw [hcd] at h1
  cases h1
  rw [← (C23_C27_class classes hst.proper b j cls cd m hcd h2 r d h3 h4).elementName]
  exact C28_accepted_reads env hst.proper ha hv hr eas k cls m hm root x

end

/-! ## Non-vacuity -/

namespace Def

theorem infos_all {l p n nl} : ∀ i ∈ [EntityInfo.mk l p n none nl none], i.WellFormed := by
  intro i hi
  simp only [List.mem_singleton] at hi
  subst hi
  exact infos_ok

theorem standard : classes.Standard := by
  intro c cd h
  unfold classes at h
  split at h <;> cases h
  · refine ⟨⟨by decide, (fun m hm => by cases hm; decide), ?_, by simp⟩, ⟨?_, by simp⟩, false, [], .done rfl, fun r s h => by cases h⟩
    · intro f hf
      simp only [List.mem_cons, List.not_mem_nil, or_false] at hf
      rcases hf with rfl | rfl
      · exact ⟨by decide, infos_all⟩
      · exact ⟨by decide, by simp⟩
    · intro f hf
      simp only [List.mem_cons, List.not_mem_nil, or_false] at hf
      rcases hf with rfl | rfl
      · exact .prim
      · exact .nullable .prim
  · refine ⟨⟨by decide, (fun m hm => by cases hm), ?_, by simp⟩, ⟨?_, by simp⟩, false, [], .done rfl, fun r s h => by cases h⟩
    · intro f hf
      simp only [List.mem_cons, List.not_mem_nil, or_false] at hf
      rcases hf with rfl | rfl <;> exact ⟨by decide, infos_all⟩
    · intro f hf
      simp only [List.mem_cons, List.not_mem_nil, or_false] at hf
      rcases hf with rfl | rfl <;> exact .prim
  · refine ⟨⟨by decide, (fun m hm => by cases hm), ?_, by simp⟩, ⟨?_, by simp⟩, false, [], .done rfl, fun r s h => by cases h⟩
    · intro f hf
      simp only [List.mem_cons, List.not_mem_nil, or_false] at hf
      rcases hf with rfl | rfl <;> exact ⟨by decide, infos_all⟩
    · intro f hf
      simp only [List.mem_cons, List.not_mem_nil, or_false] at hf
      rcases hf with rfl | rfl <;> exact .prim
  · refine ⟨⟨by decide, (fun m hm => by cases hm; decide), ?_, ?_⟩, ⟨?_, ?_⟩, false, [("Person", .model "Person" false)],
      .definitions (.ref (s := .model "Person" false) rfl (.done rfl)), ?_⟩
    · intro f hf
      simp only [List.mem_cons, List.not_mem_nil, or_false] at hf
      rcases hf with rfl | rfl | rfl | rfl | rfl | rfl | rfl
      · exact ⟨by decide, infos_all⟩
      · exact ⟨by decide, infos_all⟩
      · exact ⟨by decide, infos_all⟩
      · refine ⟨by decide, fun i hi => ?_⟩
        simp only [List.mem_singleton] at hi
        subst hi
        exact .mk (fun m hm => by cases hm) fun w hw => by
          cases hw
          exact .mk (fun m hm => by cases hm; decide) (fun w hw => by cases hw)
      · exact ⟨by decide, by simp⟩
      · exact ⟨by decide, by simp⟩
      · exact ⟨by decide, by simp⟩
    · intro c hcm
      simp only [List.mem_cons, List.not_mem_nil, or_false] at hcm
      subst hcm
      exact ⟨by decide, fun i hi => by cases hi; exact infos_ok⟩
    · intro f hf
      simp only [List.mem_cons, List.not_mem_nil, or_false] at hf
      rcases hf with rfl | rfl | rfl | rfl | rfl | rfl | rfl
      · exact .func .prim
      · exact .prim
      · exact .default (.list .prim)
      · exact .nullable .prim
      · exact .model
      · refine .nullable (.tagged ?_)
        intro c hc
        simp only [List.mem_cons, List.not_mem_nil, or_false] at hc
        rcases hc with rfl | rfl <;> exact .model
      · exact .other
    · intro c hcm
      simp only [List.mem_cons, List.not_mem_nil, or_false] at hcm
      subst hcm
      exact .prim
    · intro r s h
      simp only [Dict.get?] at h
      split at h
      · cases h; exact .model
      · cases h

/-- The program `forward` of the histories, where `Person` comes before the classes it refers to, is a program. -/
theorem forward_program : Program forward := by
  have h : Program [.statement "Person" false] := .statement (es := []) .nil (by simp)
  have h := Program.rebuild (k := false) (c := "Person") h (k' := false) (by simp)
  have h := Program.statement (k := true) (c := "Cat") h (by simp)
  have h := Program.statement (k := true) (c := "Address") h (by simp)
  have h := Program.statement (k := true) (c := "Dog") h (by simp)
  have h := Program.rebuild (k := true) (c := "Person") h (k' := false) (by simp)
  exact Program.rebuild (k := true) (c := "Cat") h (k' := true) (by simp)

theorem forward_all (c : String) (h : (classes c).isSome = true) : (history classes 9 forward .empty c).isSome = true := by
  unfold classes at h
  split at h
  · kernel_rfl
  · kernel_rfl
  · kernel_rfl
  · kernel_rfl
  · cases h

/-- So all four classes are constructible; `Person` chooses between `Dog` and `Cat`. -/
example : (∀ c, (classes c).isSome = true → Constructible classes c) ∧
    person.Chooses [("Person", .model "Person" false)] "Dog" ∧ person.Chooses [("Person", .model "Person" false)] "Cat" := by
  refine ⟨fun c hc => (C57_constructible standard c).1 ⟨9, forward, forward_program, forward_all c hc⟩, ?_, ?_⟩
  · exact .inl ⟨_, .tail _ (.tail _ (.tail _ (.tail _ (.tail _ (.head _))))), rfl,
      .tagged (.nullable (.done rfl)) (.head _) (.done rfl)⟩
  · exact .inl ⟨_, .tail _ (.tail _ (.tail _ (.tail _ (.tail _ (.head _))))), rfl,
      .tagged (.nullable (.done rfl)) (.tail _ (.head _)) (.done rfl)⟩

/-- `Person` cannot be completed before `Dog` is. -/
example : history classes 9 [.statement "Person" false, .statement "Cat" true, .rebuild "Person" true] .empty "Person" = none ∧
    (history classes 9 [.statement "Person" false, .statement "Cat" true, .statement "Dog" true, .rebuild "Person" true] .empty
      "Person").isSome = true := ⟨by kernel_rfl, by kernel_rfl⟩

/-- The environment after the program; pydantic accepts everything. -/
def programEnv : Env :=
  { Ex.env .ordered with
    model := history classes 9 forward .empty
    validate := fun cls d => match d with
      | .dict fs => .ok (fs, fs.map Prod.fst)
      | _ => .error ⟨cls, []⟩
    toJsonable := Ex.json }

def dogVal (name : String) : Val := .model "Dog" [("kind", .str "dog"), ("name", .str name)] ["kind", "name"]

theorem dog_handed (name : String) (hn : name ≠ "") :
    Handed programEnv false {} true false (.model "Dog" (dogVal name) (programEnv.toJsonable (dogVal name)) (dogVal name)) := by
  refine .fields Ex.there (m := (programEnv.model "Dog").getD ⟨"", "", none, .fields [], none, false, false⟩) (rows := [
      ({ name := "kind", ser := .attr "kind" false }, some (.str "dog", .str "dog"), .str "dog"),
      ({ name := "name", ser := .elem "name" (some []) .strict false false }, some (.str name, .str name), .str name)])
    (by kernel_rfl) (by kernel_rfl) (by simp)
    (.field trivial (by simp [Ser.slots, Slot.Competes]) (.field trivial (by simp) .nil))
    (by simp) ?_ (fun _ => ⟨_, .head _, rfl⟩) ?_ ?_
  · simp [Field.Writes, Dict.get?, Ex.json, Ex.jsonItems]
  · simp only [List.forall_mem_cons]
    exact ⟨.attr (by simp), Ex.elem_handed (by simp) hn, by simp⟩
  · simp [handedData, Dict.set, programEnv, Val.isNone]

/-- Non-vacuity of `C70_program_works`: all dogs come back. -/
example (name : String) (hn : name ≠ "") : ∃ tree N, ∀ k ≥ N, toXmlTree programEnv k {} "Dog" (dogVal name) = .ok tree ∧
    (fromXmlTree programEnv false k "Dog" tree).1 = .ok (dogVal name) :=
  (C70_program_works standard 9 forward programEnv rfl forward_all).1 _ _ _ _ _ _ _ (dog_handed name hn)

/-- Two classes that choose between each other, inside a list:
`class Left(BaseXmlModel): kind: Literal['left'] = attr(); next: List[Union['Right', Dog]]` with the discriminator `kind`, and
`Right` the same way. -/
def side (name other : String) : ClassDef where
  name := name
  schema := .model name false
  body := .fields
    [{ name := "kind", schema := .prim "literal", infos := [.mk (some .attribute) none none none none none] },
     { name := "next", schema := .list (.tagged (some "kind") [(some "other", .model other false), (some "dog", .model "Dog" false)]) }] []

def sides : Classes
  | "Left" => some (side "Left" "Right")
  | "Right" => some (side "Right" "Left")
  | "Dog" => some dog
  | _ => none

/-- Non-vacuity of `C57_circle`: `Left` and `Right` are never complete, whatever the program does. -/
example (n : Nat) (es : List Event) : history sides n es .empty "Left" = none := by
  have hside : ∀ a b, a ≠ "" → (side a b).Proper ∧ (side a b).Plain ∧ ∃ r d, Strips [] (side a b).schema d (.model a r) ∧ PlainDefs d := by
    intro a b ha
    refine ⟨⟨ha, (fun m hm => by cases hm), ?_, by simp⟩, ⟨?_, by simp⟩, false, [], .done rfl, fun r s h => by cases h⟩
    · intro f hf
      simp only [List.mem_cons, List.not_mem_nil, or_false] at hf
      rcases hf with rfl | rfl
      · exact ⟨by decide, infos_all⟩
      · exact ⟨by simp, by simp⟩
    · intro f hf
      simp only [List.mem_cons, List.not_mem_nil, or_false] at hf
      rcases hf with rfl | rfl
      · exact .prim
      · refine .list (.tagged ?_)
        intro c hc
        simp only [List.mem_cons, List.not_mem_nil, or_false] at hc
        rcases hc with rfl | rfl <;> exact .model
  have hst : sides.Standard := by
    intro c cd h
    unfold sides at h
    split at h <;> cases h
    · exact hside _ _ (by decide)
    · exact hside _ _ (by decide)
    · exact standard "Dog" dog rfl
  have hch : ∀ a b d, (side a b).Chooses d b := fun a b d =>
    .inl ⟨_, .tail _ (.head _), rfl, .list (.done rfl) (.tagged (.done rfl) (.head _) (.done rfl))⟩
  refine C57_circle hst (fun c => c = "Left" ∨ c = "Right") ?_ "Left" (.inl rfl) n es
  rintro c (rfl | rfl) cd r d hcd -
  · cases hcd; exact ⟨"Right", .inr rfl, hch _ _ _⟩
  · cases hcd; exact ⟨"Left", .inl rfl, hch _ _ _⟩

end Def

end PXml
