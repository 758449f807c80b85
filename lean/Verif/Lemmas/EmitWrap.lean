import Verif.Lemmas.EmitLevel

/-! Wrapped fields. -/

namespace PXml

open Elem

variable {wh : Bool}

/-- Nothing is written for the value. -/
def Quiet (fl : Flags) : Option (Val × Val) → Prop
  | none => True
  | some (v, _) => v = .none ∨ (fl.skipEmpty = true ∧ v.len? = some 0)

theorem quiet_or (fl : Flags) (val : Option (Val × Val)) : Quiet fl val ∨ ∃ v enc, val = some (v, enc) ∧ ¬Quiet fl (some (v, enc)) := by
  match val with
  | none => exact .inl trivial
  | some (v, enc) =>
    by_cases h : Quiet fl (some (v, enc))
    · exact .inl h
    · exact .inr ⟨v, enc, rfl, h⟩

theorem loud {fl : Flags} {v enc : Val} (h : ¬Quiet fl (some (v, enc))) : v.isNone = false ∧ (fl.skipEmpty && decide (v.len? = some 0)) = false := by
  refine ⟨Val.isNone_of_ne fun hv => h (.inl hv), ?_⟩
  refine Bool.eq_false_iff.2 fun hx => h (.inr ?_)
  simpa using hx

/-- What is known of a field with a value. -/
inductive FieldSem (wh : Bool) (env : Env) (eas : Bool) (fl : Flags) : Bool → Ser → Option (Val × Val) → Val → Prop
  | single {so : Bool} {s : Ser} {val : Option (Val × Val)} {d : Val} : s.NotWrapped →
      (∃ M, Emits wh env eas fl s val d M ∧ (so = true → M.Solid)) → FieldSem wh env eas fl so s val d
  | wrapSilent {t : String} {ts : List String} {nsmap : Option NsMap} {mode : Mode} {inner : Ser} {val : Option (Val × Val)} :
      inner.Silent eas → Quiet fl val → FieldSem wh env eas fl false (.wrap (t :: ts) nsmap mode false inner) val .none
  | wrap {so so' : Bool} {t : String} {ts : List String} {nsmap : Option NsMap} {mode : Mode} {inner : Ser} {v enc d : Val} :
      ¬Quiet fl (some (v, enc)) → FieldSem wh env eas fl so' inner (some (v, enc)) d →
      FieldSem wh env eas fl so (.wrap (t :: ts) nsmap mode false inner) (some (v, enc)) d

theorem FieldSem.any {env : Env} {eas : Bool} {fl : Flags} {so : Bool} {s : Ser} {val : Option (Val × Val)} {d : Val}
    (h : FieldSem wh env eas fl so s val d) : FieldSem wh env eas fl false s val d := by
  cases h with
  | single hn h => obtain ⟨M, h, _⟩ := h; exact .single hn ⟨M, h, fun h => by cases h⟩
  | wrapSilent h1 h2 => exact .wrapSilent h1 h2
  | wrap hv h => exact .wrap hv h

theorem silent_notWrapped {eas : Bool} {s : Ser} (h : s.Silent eas) : s.NotWrapped ∨
    ∃ t ts nsmap mode inner, s = .wrap (t :: ts) nsmap mode false inner ∧ inner.Silent eas := by
  induction h with
  | wrap h => exact .inr ⟨_, _, _, _, _, rfl, h⟩
  | item h => cases h <;> exact .inl trivial
  | _ => exact .inl trivial

theorem silent_sem {env : Env} {eas : Bool} {fl : Flags} {s : Ser} (hr : s.Everywhere (Ser.Resolved env)) (h : s.Silent eas) :
    FieldSem wh env eas fl false s none .none := by
  rcases silent_notWrapped h with hn | ⟨t, ts, nsmap, mode, inner, rfl, hi⟩
  · exact .single hn ⟨_, emits_nothing hr h hn none (fun w => ⟨rfl, rfl⟩) (by simp) (by simp), fun h => (by cases h)⟩
  · exact .wrapSilent hi trivial

/-- The field as seen from inside its outermost wrapper. -/
noncomputable def strip (fl : Flags) (e : Entry) : Entry := open Classical in (e.1.inWrapper, if Quiet fl e.2.1 then none else e.2.1, e.2.2)

theorem strip_sem {env : Env} {eas : Bool} {fl : Flags} {t : String} {e : Entry} (hu : e.1.Under t)
    (hr : e.1.Everywhere (Ser.Resolved env)) {so : Bool} (h : FieldSem wh env eas fl so e.1 e.2.1 e.2.2) :
    FieldSem wh env eas fl false (strip fl e).1 (strip fl e).2.1 (strip fl e).2.2 := by
  obtain ⟨s, val, d⟩ := e
  simp only at h hu hr
  cases h with
  | single hn _ => cases s <;> first | exact absurd hu id | exact absurd hn id
  | @wrapSilent t ts nsmap mode inner _ hi hq =>
    simp only [strip, if_pos hq]
    cases ts with
    | nil =>
      simp only [Ser.inWrapper]
      cases hr with | mk _ hr => exact silent_sem (hr inner (by simp [Ser.subs])) hi
    | cons => exact .wrapSilent hi trivial
  | @wrap _ _ t ts nsmap mode inner v enc _ hq h =>
    simp only [strip, if_neg hq]
    cases ts with
    | nil => exact h.any
    | cons => exact .wrap hq h

theorem strip_resolved {env : Env} {fl : Flags} {t : String} {e : Entry} (hu : e.1.Under t) (hr : e.1.Everywhere (Ser.Resolved env)) :
    (strip fl e).1.Everywhere (Ser.Resolved env) := by
  obtain ⟨s, val, d⟩ := e
  simp only at hu hr
  simp only [strip]
  cases s <;> first | exact absurd hu id | skip
  rename_i path ns mode c inner
  cases hr with
  | mk h hr =>
    have := hr inner (by simp [Ser.subs])
    match path, hu with
    | [_], _ => exact this
    | _ :: t :: ts, _ => exact .mk trivial (by simpa [Ser.subs, Ser.inWrapper] using this)

/-! ## Writing -/

theorem ascend_strip {env : Env} {fl : Flags} {t : String} {ts : List String} {nsmap : Option NsMap}
    {mode : Mode} {c : Bool} {inner : Ser} {v enc : Val} (hv : ¬Quiet fl (some (v, enc))) {x x' : Elem}
    (h : Wr env fl (Ser.wrap (t :: ts) nsmap mode c inner).inWrapper (some (v, enc)) x x') :
    ∃ N, ∀ n ≥ N, ascend env.backend mode nsmap (fun y => ser env n fl inner y v enc) ts x = .ok x' := by
  obtain ⟨_, N, hN⟩ := h
  cases ts with
  | nil => exact ⟨N, hN⟩
  | cons t' ts =>
    refine ⟨N, fun n hn => ?_⟩
    have := hN (n + 1) (by omega)
    change serStep env (ser env n) fl (.wrap (t' :: ts) nsmap mode c inner) x v enc = _ at this
    simpa only [serStep, (loud hv).1, (loud hv).2, Bool.false_eq_true, if_false] using this

theorem quiet_write {env : Env} {fl : Flags} {t : String} {e : Entry} (hu : e.1.Under t) (hq : Quiet fl e.2.1) (w : Elem) :
    Wr env fl e.1 e.2.1 w w := by
  obtain ⟨s, val, d⟩ := e
  simp only at hu hq
  match val, hq with
  | none, _ => exact ⟨rfl, rfl⟩
  | some (v, enc), hq =>
    refine ⟨rfl, 1, fun n hn => ?_⟩
    obtain ⟨k, rfl⟩ : ∃ k, n = k + 1 := ⟨n - 1, by omega⟩
    cases s <;> first | exact absurd hu id | skip
    rename_i path ns mode c inner
    change serStep env (ser env k) fl (.wrap path ns mode c inner) w v enc = _
    rcases hq with rfl | ⟨h1, h2⟩
    · rfl
    · simp [serStep, h1, h2]

theorem Wr.none_eq {env : Env} {fl : Flags} {s : Ser} {w w' : Elem} (h : Wr env fl s none w w') : w' = w := h.2

theorem wseq_quiet {env : Env} {fl : Flags} {t : String} (G : List Entry) (hu : ∀ e ∈ G, e.1.Under t) (hq : ∀ e ∈ G, Quiet fl e.2.1) (w : Elem) :
    WSeq env fl G w w := by
  induction G with
  | nil => rfl
  | cons e G ih => exact ⟨w, quiet_write (hu e (by simp)) (hq e (by simp)) w, ih (fun x hx => hu x (by simp [hx])) fun x hx => hq x (by simp [hx])⟩

theorem wseq_strip_quiet {env : Env} {fl : Flags} (G : List Entry) (hq : ∀ e ∈ G, Quiet fl e.2.1) {w w' : Elem}
    (h : WSeq env fl (G.map (strip fl)) w w') : w' = w := by
  induction G generalizing w with
  | nil => exact h
  | cons e G ih =>
    obtain ⟨w1, h1, h2⟩ := h
    simp only [strip, if_pos (hq e (by simp))] at h1
    rw [ih (fun x hx => hq x (by simp [hx])) h2, h1.none_eq]

/-- Further wrapped fields are added to the last child. -/
theorem wseq_reuse {env : Env} {fl : Flags} {t : String} (P : List Entry) (hu : ∀ e ∈ P, e.1.Under t)
    {c c' : Elem} (hc : c.tag = t) (h : WSeq env fl (P.map (strip fl)) c c') (w : Elem) (hw : w.AtEnd) (X : List Elem)
    (hX : w.elements = X ++ [c]) : WSeq env fl P w { w with elements := X ++ [c'] } ∧ c'.tag = t := by
  induction P generalizing c w with
  | nil =>
    have h : c' = c := h
    subst h
    refine ⟨?_, hc⟩
    change _ = w
    rw [← hX]
    exact (Elem.eta w).symm
  | cons e P ih =>
    obtain ⟨c1, h1, h2⟩ := h
    have hc1 : c1.tag = t := h1.1.trans hc
    obtain ⟨s, val, d⟩ := e
    have hus := hu (s, val, d) (by simp)
    by_cases hq : Quiet fl val
    · simp only [strip, if_pos hq] at h1
      have := h1.none_eq
      subst this
      obtain ⟨g1, g2⟩ := ih (fun x hx => hu x (by simp [hx])) hc h2 w hw hX
      exact ⟨⟨w, quiet_write hus hq w, g1⟩, g2⟩
    · obtain ⟨v, enc, rfl, hv⟩ := (quiet_or fl val).resolve_left hq
      simp only [strip, if_neg hq] at h1
      have hAt : ({ w with elements := X ++ [c1] } : Elem).AtEnd := by
        unfold AtEnd at *
        simp only
        rw [hw, hX]; simp
      obtain ⟨g1, g2⟩ := ih (fun x hx => hu x (by simp [hx])) hc1 h2 { w with elements := X ++ [c1] } hAt rfl
      refine ⟨⟨{ w with elements := X ++ [c1] }, ⟨rfl, ?_⟩, g1⟩, g2⟩
      cases s <;> first | exact absurd hus id | skip
      rename_i path ns mode cc inner
      match path, hus with
      | t' :: ts, hus =>
        have hus : t' = t := hus
        subst hus
        obtain ⟨N, hN⟩ := ascend_strip hv h1
        refine ⟨N + 1, fun n hn => ?_⟩
        obtain ⟨k, rfl⟩ : ∃ k, n = k + 1 := ⟨n - 1, by omega⟩
        change serStep env (ser env k) fl (.wrap (t' :: ts) ns mode cc inner) w v enc = _
        have hln : w.lastNamed t' = some c := by simp [lastNamed, hX, hc]
        have hget : w.elements[w.elements.length - 1]? = some c := by rw [hX]; simp
        simp only [serStep, (loud hv).1, (loud hv).2, Bool.false_eq_true, if_false, ascend, C41_finds_last_only w hw,
          hln, Option.map_some, hget, hN k (by omega), Out.bind, setChild_last hget]
        simp [hX]

/-- The first wrapped field with a value creates the wrapper. -/
theorem wseq_fresh {env : Env} {fl : Flags} {t : String} (G : List Entry) (hu : ∀ e ∈ G, e.1.Under t)
    (hl : ¬∀ e ∈ G, Quiet fl e.2.1) :
    ∃ ns, ∀ c', WSeq env fl (G.map (strip fl)) (makeElement env.backend t ns) c' → ∀ w : Elem, w.AtEnd →
      (∀ x, w.elements.getLast? = some x → x.tag ≠ t) → WSeq env fl G w (w.append c') ∧ c'.tag = t := by
  induction G with
  | nil => exact absurd (by simp) hl
  | cons e G ih =>
    obtain ⟨s, val, d⟩ := e
    have hus := hu (s, val, d) (by simp)
    by_cases hq : Quiet fl val
    · obtain ⟨ns, hns⟩ := ih (fun x hx => hu x (by simp [hx])) (fun h => hl (by
        intro x hx
        rcases List.mem_cons.1 hx with rfl | hx
        · exact hq
        · exact h x hx))
      refine ⟨ns, fun c' h w hw hx => ?_⟩
      obtain ⟨c1, h1, h2⟩ := h
      simp only [strip, if_pos hq] at h1
      have := h1.none_eq
      subst this
      obtain ⟨g1, g2⟩ := hns c' h2 w hw hx
      exact ⟨⟨w, quiet_write hus hq w, g1⟩, g2⟩
    · obtain ⟨v, enc, rfl, hv⟩ := (quiet_or fl val).resolve_left hq
      cases s <;> first | exact absurd hus id | skip
      rename_i path ns mode cc inner
      match path, hus with
      | t' :: ts, hus =>
        have hus : t' = t := hus
        subst hus
        refine ⟨ns, fun c' h w hw hx => ?_⟩
        obtain ⟨c1, h1, h2⟩ := h
        simp only [strip, if_neg hq] at h1
        have hc1 : c1.tag = t' := h1.1
        have hAt : (w.append c1).AtEnd := (Adds.append w c1).atEnd hw
        obtain ⟨g1, g2⟩ := wseq_reuse G (fun x hx => hu x (by simp [hx])) hc1 h2 (w.append c1) hAt w.elements rfl
        refine ⟨⟨w.append c1, ⟨rfl, ?_⟩, g1⟩, g2⟩
        obtain ⟨N, hN⟩ := ascend_strip hv h1
        refine ⟨N + 1, fun n hn => ?_⟩
        obtain ⟨k, rfl⟩ : ∃ k, n = k + 1 := ⟨n - 1, by omega⟩
        change serStep env (ser env k) fl (.wrap (t' :: ts) ns mode cc inner) w v enc = _
        have hln : w.lastNamed t' = none := by
          unfold lastNamed
          cases hgl : w.elements.getLast? with
          | none => rfl
          | some x => simp [Option.filter, hx x hgl]
        simp only [serStep, (loud hv).1, (loud hv).2, Bool.false_eq_true, if_false, ascend, C41_finds_last_only w hw,
          hln, Option.map_none, hN k (by omega), Out.bind]

/-! ## Reading -/

theorem descend_strip {env : Env} {eas : Bool} {t : String} {ts : List String} {nsmap : Option NsMap} {mode : Mode} {inner : Ser}
    {d : Val} {x x' : Elem} (h : Rd env eas (Ser.wrap (t :: ts) nsmap mode false inner).inWrapper d x x') :
    ∃ N, ∀ n ≥ N, ∀ loc sm, ∃ sm', descend mode (fun c => deser env eas n inner loc { c with sm := c.sm.set loc c.el.line }) ts ⟨x, sm⟩ =
      (.ok d, ⟨x', sm'⟩) := by
  obtain ⟨_, N, hN⟩ := h
  cases ts with
  | nil => exact ⟨N, fun n hn loc sm => hN n hn loc (sm.set loc x.line)⟩
  | cons t' ts =>
    refine ⟨N, fun n hn loc sm => ?_⟩
    obtain ⟨sm', h⟩ := hN (n + 1) (by omega) loc sm
    refine ⟨sm', ?_⟩
    change deserStep env eas (deser env eas n) n (.wrap (t' :: ts) nsmap mode false inner) loc ⟨x, sm⟩ = _ at h
    simpa only [deserStep, Bool.false_eq_true, if_false] using h

theorem rseq_quiet {env : Env} {eas : Bool} {fl : Flags} {t : String} (G : List Entry) (hu : ∀ e ∈ G, e.1.Under t) (hq : ∀ e ∈ G, Quiet fl e.2.1)
    (hr : ∀ e ∈ G, e.1.Everywhere (Ser.Resolved env)) (hs : ∀ e ∈ G, ∃ so, FieldSem wh env eas fl so e.1 e.2.1 e.2.2) (r : Elem)
    (hn : r.next ≤ r.elements.length) (hun : ∀ c ∈ r.unread, c.tag ≠ t) (hseen : ∀ c, r.seen.getLast? = some c → c.tag ≠ t) :
    RSeq env eas G r r := by
  induction G with
  | nil => rfl
  | cons e G ih =>
    refine ⟨r, ?_, ih (fun x hx => hu x (by simp [hx])) (fun x hx => hq x (by simp [hx])) (fun x hx => hr x (by simp [hx]))
      fun x hx => hs x (by simp [hx])⟩
    obtain ⟨so, h1⟩ := hs e (by simp)
    have h2 := hu e (by simp)
    have h3 := hr e (by simp)
    have h4 := hq e (by simp)
    obtain ⟨s, val, d⟩ := e
    simp only at h1 h2 h3 h4
    cases h1 with
    | single hn _ => cases s <;> first | exact absurd h2 id | exact absurd hn id
    | @wrapSilent t' ts nsmap mode inner _ hi hq =>
      have h2 : t' = t := h2
      subst h2
      exact rd_absent h3 (.wrap hn hseen (candidate_of_unread hun))
    | wrap hv _ => exact absurd h4 hv

theorem sem_wrap {env : Env} {eas : Bool} {fl : Flags} {t : String} {s : Ser} {val : Option (Val × Val)} {d : Val} (hu : s.Under t)
    (h : ∃ so, FieldSem wh env eas fl so s val d) : ∃ ts nsmap mode inner, s = .wrap (t :: ts) nsmap mode false inner := by
  obtain ⟨so, h⟩ := h
  cases h with
  | single hn _ => cases s <;> first | exact absurd hu id | exact absurd hn id
  | wrapSilent => cases hu; exact ⟨_, _, _, _, rfl⟩
  | wrap => cases hu; exact ⟨_, _, _, _, rfl⟩

/-- Further wrapped fields are read from the child entered last. -/
theorem rseq_reuse {env : Env} {eas : Bool} {fl : Flags} {t : String} (P : List Entry) (hu : ∀ e ∈ P, e.1.Under t)
    (hs : ∀ e ∈ P, ∃ so, FieldSem wh env eas fl so e.1 e.2.1 e.2.2) {c c' : Elem} (hc : c.tag = t) (h : RSeq env eas (P.map (strip fl)) c c') (r : Elem)
    (X rest : List Elem) (hX : r.elements = X ++ c :: rest) (hn : r.next = X.length + 1) :
    RSeq env eas P r { r with elements := X ++ c' :: rest } ∧ c'.tag = t := by
  induction P generalizing c r with
  | nil =>
    have h : c' = c := h
    subst h
    refine ⟨?_, hc⟩
    change _ = r
    rw [← hX]
    exact (Elem.eta r).symm
  | cons e P ih =>
    obtain ⟨c1, h1, h2⟩ := h
    have hc1 : c1.tag = t := h1.1.trans hc
    have hus := hu e (by simp)
    have hse := hs e (by simp)
    obtain ⟨s, val, d⟩ := e
    simp only at hus hse
    obtain ⟨g1, g2⟩ := ih (fun x hx => hu x (by simp [hx])) (fun x hx => hs x (by simp [hx])) hc1 h2 { r with elements := X ++ c1 :: rest } rfl hn
    refine ⟨⟨{ r with elements := X ++ c1 :: rest }, ⟨rfl, ?_⟩, g1⟩, g2⟩
    obtain ⟨ts, ns, mode, inner, rfl⟩ := sem_wrap hus hse
    simp only [strip] at h1
    obtain ⟨N, hN⟩ := descend_strip h1
    refine ⟨N + 1, fun n hn' loc sm => ?_⟩
    obtain ⟨k, rfl⟩ : ∃ k, n = k + 1 := ⟨n - 1, by omega⟩
    obtain ⟨sm', hsm⟩ := hN k (by omega) loc sm
    refine ⟨sm', ?_⟩
    change deserStep env eas (deser env eas k) k (.wrap (t :: ts) ns mode false inner) loc ⟨r, sm⟩ = _
    have hget : r.elements[X.length]? = some c := by rw [hX]; simp
    have hfind : r.findElement t mode = .ok (some X.length, r) := by
      have : r.lookBehind t = .ok true := by simp [lookBehind, hn, hget, hc]
      unfold findElement
      rw [this]
      simp only [bind, Except.bind, if_true, hn, Nat.add_sub_cancel]
    simp only [deserStep, Bool.false_eq_true, if_false, descend, hfind, onChild, hget, hsm]
    simp [setChild, hX]

/-- The first wrapped field opens the wrapper. -/
theorem rseq_fresh {env : Env} {eas : Bool} {fl : Flags} {t : String} (G : List Entry) (hne : G ≠ []) (hu : ∀ e ∈ G, e.1.Under t)
    (hs : ∀ e ∈ G, ∃ so, FieldSem wh env eas fl so e.1 e.2.1 e.2.2) {c c' : Elem} (hc : c.tag = t) (h : RSeq env eas (G.map (strip fl)) c c') (r : Elem)
    (S rest : List Elem) (hS : r.elements = S ++ c :: rest) (hn : r.next = S.length) (hseen : ∀ x, S.getLast? = some x → x.tag ≠ t) :
    RSeq env eas G r { r with elements := S ++ c' :: rest, next := S.length + 1 } ∧ c'.tag = t := by
  cases G with
  | nil => exact absurd rfl hne
  | cons e P =>
    obtain ⟨c1, h1, h2⟩ := h
    have hc1 : c1.tag = t := h1.1.trans hc
    have hus := hu e (by simp)
    have hse := hs e (by simp)
    obtain ⟨s, val, d⟩ := e
    simp only at hus hse
    obtain ⟨g1, g2⟩ := rseq_reuse P (fun x hx => hu x (by simp [hx])) (fun x hx => hs x (by simp [hx])) hc1 h2
      { r with elements := S ++ c1 :: rest, next := S.length + 1 } S rest rfl rfl
    refine ⟨⟨{ r with elements := S ++ c1 :: rest, next := S.length + 1 }, ⟨rfl, ?_⟩, g1⟩, g2⟩
    obtain ⟨ts, ns, mode, inner, rfl⟩ := sem_wrap hus hse
    simp only [strip] at h1
    obtain ⟨N, hN⟩ := descend_strip h1
    refine ⟨N + 1, fun n hn' loc sm => ?_⟩
    obtain ⟨k, rfl⟩ : ∃ k, n = k + 1 := ⟨n - 1, by omega⟩
    obtain ⟨sm', hsm⟩ := hN k (by omega) loc sm
    refine ⟨sm', ?_⟩
    change deserStep env eas (deser env eas k) k (.wrap (t :: ts) ns mode false inner) loc ⟨r, sm⟩ = _
    have hget : r.elements[S.length]? = some c := by rw [hS]; simp
    have hlb : r.lookBehind t = .ok false := by
      apply lookBehind_absent
      · rw [hS, hn]; simp
      · intro w hw
        unfold Elem.seen at hw
        rw [hS, hn] at hw
        exact hseen w (by simpa using hw)
    have hfind : r.findElement t mode = .ok (some S.length, { r with next := S.length + 1 }) := by
      unfold findElement
      rw [hlb]
      simp only [bind, Except.bind, Bool.false_eq_true, if_false, search_front hS hn hc, if_true]
    simp only [deserStep, Bool.false_eq_true, if_false, descend, hfind, onChild, hget, hsm]
    simp [setChild, hS]

/-! ## A group of wrapped fields -/

theorem under_slots {t : String} {s : Ser} (h : s.Under t) : s.slots = [.child t] := by
  cases s <;> first | exact absurd h id | skip
  rename_i path _ _ _ _
  match path, h with
  | t' :: ts, h => have h : t' = t := h; subst h; rfl

theorem level_group {env : Env} {eas : Bool} {fl : Flags} {t : String} {G : List Entry} (hne : G ≠ [])
    (hu : ∀ e ∈ G, e.1.Under t) (hr : ∀ e ∈ G, e.1.Everywhere (Ser.Resolved env)) (hs : ∀ e ∈ G, ∃ so, FieldSem wh env eas fl so e.1 e.2.1 e.2.2)
    (hin : ∃ M, Level wh env eas fl (G.map (strip fl)) M) : ∃ M, Level wh env eas fl G M ∧ ((¬∀ e ∈ G, Quiet fl e.2.1) → M.Solid) := by
  have hp : ∀ a, a ∈ places G ↔ a = .child t := by
    intro a
    rw [places_mem]
    constructor
    · rintro ⟨e, he, ha⟩; rw [under_slots (hu e he)] at ha; simpa using ha
    · rintro rfl
      obtain ⟨e, G', rfl⟩ := List.exists_cons_of_ne_nil hne
      exact ⟨e, by simp, by rw [under_slots (hu e (by simp))]; simp⟩
  have hcar : ∀ k v enc d, (Ser.attr k false, some (v, enc), d) ∈ G → False := fun k v enc d h => hu _ h
  by_cases hq : ∀ e ∈ G, Quiet fl e.2.1
  · refine ⟨{}, ⟨by simp [Dict.keys], Dict.wf_nil, by simp, by simp, ?_, ?_, fun k v enc d h => (hcar k v enc d h).elim⟩, fun h => absurd hq h⟩
    · exact fun w _ _ _ _ => ⟨w, wseq_quiet G hu hq w, Adds.refl w⟩
    · intro S rest A2 r hf hrest hS
      refine ⟨r, rseq_quiet G hu hq hr hs r hf.le ?_ ?_, Takes.refl hf⟩
      · intro c hc h
        rw [hf.unread] at hc
        exact hrest c (by simpa using hc) ((hp _).2 (by rw [h]))
      · intro c hc h
        rw [hf.seen] at hc
        exact hS c hc ((hp _).2 (by rw [h]))
  · obtain ⟨M, hM⟩ := hin
    obtain ⟨ns, hns⟩ := wseq_fresh (env := env) (fl := fl) G hu hq
    obtain ⟨c, h1, h2⟩ := hM.writes (makeElement env.backend t ns) (fresh_atEnd _ _ _) (by simp [makeElement, Dict.keys]) (fun _ => rfl)
      (by simp [makeElement])
    obtain ⟨c', h3, h4⟩ := hM.reads [] [] [] c.reread (faces_reread h2 rfl rfl rfl) (by simp) (by simp)
    have hct : c.tag = t := h2.tag
    have hclean : c'.Clean wh := h4.clean (fun ht => by
      rw [reread_text, h2.text]
      cases hx : M.text with
      | none => rfl
      | some x => exact absurd (hM.text (by simp [hx])) ht) (by rw [reread_tail, h2.tail]; rfl)
    refine ⟨{ kids := [c] }, ⟨by simp [Dict.keys], Dict.wf_nil, ?_, by simp, ?_, ?_, fun k v enc d h => (hcar k v enc d h).elim⟩,
      fun _ => .inr (.inr (by simp))⟩
    · simp [hp, hct]
    · intro w hw _ _ hl
      exact ⟨w.append c, (hns c h1 w hw fun x hx h => hl x hx ((hp _).2 (by rw [h]))).1, Adds.append w c⟩
    · intro S rest A2 r hf hrest hS
      obtain ⟨g1, g2⟩ := rseq_fresh G hne hu hs (c := c.reread) (by rw [reread_tag, hct]) h3 r S rest (by simpa using hf.elements) hf.next
        (fun x hx h => hS x hx ((hp _).2 (by rw [h])))
      refine ⟨_, g1, rfl, rfl, fun h => ?_, fun _ => rfl, by simpa using hf.attrib, fun _ h => h, [c'], by simp, by simp, by simpa using hclean, ?_⟩
      · rw [hp] at h; cases h
      · simp [g2, hct]

theorem Level.append_solid {env : Env} {eas : Bool} {fl : Flags} {L1 L2 : List Entry} {M1 M2 : Em} (h1 : Level wh env eas fl L1 M1)
    (h2 : Level wh env eas fl L2 M2) (hc : ∀ a ∈ places L1, ∀ b ∈ places L2, ¬ a.Competes b) (h : M1.Solid ∨ M2.Solid) :
    (M1.append M2).Solid := by
  refine Em.append_solid (fun ht => ?_) h
  cases hx : M2.text with
  | none => rfl
  | some x => exact absurd trivial (hc _ (h1.text ht) _ (h2.text (by simp [hx])))

theorem level_tidy {env : Env} {eas : Bool} {fl : Flags} {ss : List Ser} (ht : Tidy ss) (L : List Entry)
    (hL : L.map (fun e => e.1) = ss) (hr : ∀ e ∈ L, e.1.Everywhere (Ser.Resolved env))
    (hs : ∀ e ∈ L, ∃ so, FieldSem wh env eas fl so e.1 e.2.1 e.2.2) :
    ∃ M, Level wh env eas fl L M ∧ ((∃ e ∈ L, FieldSem wh env eas fl true e.1 e.2.1 e.2.2) → M.Solid) := by
  induction ht generalizing L with
  | nil =>
    have : L = [] := by simpa using hL
    subst this
    exact ⟨_, Level.nil env eas fl, by simp⟩
  | @field s rest hn hc ht ih =>
    obtain ⟨⟨s', val, d⟩, L, rfl, h1, h2⟩ := List.map_eq_cons_iff.1 hL
    simp only at h1
    subst h1
    obtain ⟨M2, hM2, hso2⟩ := ih L h2 (fun x hx => hr x (by simp [hx])) (fun x hx => hs x (by simp [hx]))
    have hse : ∃ M1, Emits wh env eas fl s' val d M1 ∧ (FieldSem wh env eas fl true s' val d → M1.Solid) := by
      by_cases hx : FieldSem wh env eas fl true s' val d
      · cases hx with
        | single _ h => obtain ⟨M1, h1, h3⟩ := h; exact ⟨M1, h1, fun _ => h3 rfl⟩
        | wrap => exact absurd hn id
      · obtain ⟨so, hse⟩ := hs (s', val, d) (by simp)
        cases hse with
        | single _ h => obtain ⟨M1, h1, _⟩ := h; exact ⟨M1, h1, fun h => absurd h hx⟩
        | wrapSilent => exact absurd hn id
        | wrap => exact absurd hn id
    obtain ⟨M1, hM1, hso1⟩ := hse
    have hcc : ∀ a ∈ places [(s', val, d)], ∀ b ∈ places L, ¬ a.Competes b := by
      intro a ha b hb
      obtain ⟨x, hx, ha⟩ := places_mem.1 ha
      simp only [List.mem_singleton] at hx
      subst hx
      obtain ⟨y, hy, hb⟩ := places_mem.1 hb
      exact hc a ha y.1 (h2 ▸ List.mem_map_of_mem hy) b hb
    refine ⟨_, (Level.single hM1).append hM2 hcc, ?_⟩
    rintro ⟨e, he, hso⟩
    refine (Level.single hM1).append_solid hM2 hcc ?_
    rcases List.mem_cons.1 he with rfl | he
    · exact .inl (hso1 hso)
    · exact .inr (hso2 ⟨e, he, hso⟩)
  | @wrapped t group rest hne hu htg hc htr ihg ihr =>
    obtain ⟨G, L, rfl, h1, h2⟩ := List.map_eq_append_iff.1 hL
    have huG : ∀ e ∈ G, e.1.Under t := fun e he => hu e.1 (h1 ▸ List.mem_map_of_mem he)
    have hrG : ∀ e ∈ G, e.1.Everywhere (Ser.Resolved env) := fun e he => hr e (by simp [he])
    have hsG : ∀ e ∈ G, ∃ so, FieldSem wh env eas fl so e.1 e.2.1 e.2.2 := fun e he => hs e (by simp [he])
    obtain ⟨M2, hM2, hso2⟩ := ihr L h2 (fun x hx => hr x (by simp [hx])) (fun x hx => hs x (by simp [hx]))
    obtain ⟨M0, hM0, _⟩ := ihg (G.map (strip fl)) (by rw [← h1]; simp [strip, Function.comp_def])
      (fun e he => by
        obtain ⟨x, hx, rfl⟩ := List.mem_map.1 he
        exact strip_resolved (huG x hx) (hrG x hx))
      (fun e he => by
        obtain ⟨x, hx, rfl⟩ := List.mem_map.1 he
        obtain ⟨so, hso⟩ := hsG x hx
        exact ⟨false, strip_sem (huG x hx) (hrG x hx) hso⟩)
    obtain ⟨M1, hM1, hso1⟩ := level_group (t := t) (G := G) (by rintro rfl; exact hne (by simpa using h1.symm)) huG hrG hsG
      ⟨M0, hM0⟩
    have hcc : ∀ a ∈ places G, ∀ b ∈ places L, ¬ a.Competes b := by
      intro a ha b hb hab
      obtain ⟨x, hx, ha⟩ := places_mem.1 ha
      rw [under_slots (huG x hx)] at ha
      simp only [List.mem_singleton] at ha
      subst ha
      obtain ⟨y, hy, hb⟩ := places_mem.1 hb
      cases b with
      | child t' =>
        have : t = t' := hab
        subst this
        exact hc y.1 (h2 ▸ List.mem_map_of_mem hy) hb
      | _ => exact hab
    refine ⟨_, hM1.append hM2 hcc, ?_⟩
    rintro ⟨e, he, hso⟩
    refine hM1.append_solid hM2 hcc ?_
    rcases List.mem_append.1 he with he | he
    · refine .inl (hso1 fun hq => ?_)
      have := hq e he
      have hu := huG e he
      obtain ⟨s, val, d⟩ := e
      simp only at hso this hu
      cases hso with
      | single hn _ => cases s <;> first | exact absurd hu id | exact absurd hn id
      | wrap h _ => exact h this
    · exact .inr (hso2 ⟨e, he, hso⟩)

end PXml
