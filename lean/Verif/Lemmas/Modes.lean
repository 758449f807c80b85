import Verif.SpecModes
import Verif.Props.Wrapped

/-! Writing does not depend on the search mode. -/

namespace PXml
namespace Modes

open Elem

theorem strictAll_eq : ∀ ss : List Ser, Ser.strictAll ss = ss.map Ser.strict
  | [] => rfl
  | s :: ss => by rw [Ser.strictAll, strictAll_eq ss]; rfl

theorem bind_congr {f g : Elem → Out Elem} {o o' : Out Elem} (h : o = o') (hf : ∀ e, o = .ok e → f e = g e) : o.bind f = o'.bind g := by
  subst h
  cases o with
  | ok e => exact hf e rfl
  | _ => rfl

theorem inside_congr (fresh : String → Elem) (hfresh : ∀ t, (fresh t).Open) {f g : Elem → Out Elem} (h : ∀ e, e.Open → f e = g e) :
    ∀ (path : List String) (e : Elem), e.Open → e.inside fresh f path = e.inside fresh g path
  | [], e, he => h e he
  | t :: ts, e, he => by
    unfold Elem.inside
    cases hl : e.lastNamed t with
    | some c =>
      have hc := (open_iff.1 he).2 c (List.mem_of_getElem? (lastNamed_get hl).1)
      simp only [inside_congr fresh hfresh h ts c hc]
    | none => simp only [inside_congr fresh hfresh h ts _ (hfresh t)]

theorem ascend_congr (b : Backend) (mode : Mode) (nsmap : Option NsMap) {f g : Elem → Out Elem} (h : ∀ e, e.Open → f e = g e)
    (path : List String) (e : Elem) (he : e.Open) : ascend b mode nsmap f path e = ascend b .strict nsmap g path e := by
  rw [ascend_inside _ _ _ _ _ _ (he.along path), ascend_inside _ _ _ _ _ _ (he.along path)]
  exact inside_congr _ (fun _ => open_make _ _ _) h path e he

theorem items_congr {f g : Elem → Val → Val → Out Elem} (h : ∀ e v x, e.Open → f e v x = g e v x)
    (ho : ∀ e v x e', e.Open → f e v x = .ok e' → e'.Open) (fl : Flags) : ∀ (vs encs : List Val) (e : Elem), e.Open →
      serItems f fl vs encs e = serItems g fl vs encs e
  | [], _, _, _ => rfl
  | _ :: _, [], _, _ => rfl
  | v :: vs, x :: xs, e, he => by
    unfold serItems
    rw [items_congr h ho fl vs xs e he]
    split
    · rfl
    · exact bind_congr (h e v x he) fun e' h' => items_congr h ho fl vs xs e' (ho _ _ _ _ he h')

theorem tuple_congr {f g : Ser → Elem → Val → Val → Out Elem} : ∀ (ss : List Ser)
    (_ : ∀ s ∈ ss, ∀ e v x, e.Open → f s e v x = g s.strict e v x)
    (_ : ∀ s ∈ ss, ∀ e v x e', e.Open → f s e v x = .ok e' → e'.Open) (vs encs : List Val) (e : Elem), e.Open →
      serTuple f ss vs encs e = serTuple g (ss.map Ser.strict) vs encs e
  | [], _, _, _, _, _, _ => rfl
  | _ :: _, _, _, [], _, _, _ => rfl
  | _ :: _, _, _, _ :: _, [], _, _ => rfl
  | s :: ss, h, ho, v :: vs, x :: xs, e, he => by
    simp only [List.map_cons, serTuple]
    exact bind_congr (h s (by simp) e v x he) fun e' h' =>
      tuple_congr ss (fun s hs => h s (by simp [hs])) (fun s hs => ho s (by simp [hs])) vs xs e' (ho s (by simp) _ _ _ _ he h')

theorem fields_congr {f g : Ser → Elem → Val → Val → Out Elem} (fl : Flags) (self : Val) (d : Dict String Val) (set : List String)
    (enc : Val) : ∀ (fs : List Field)
    (_ : ∀ k ∈ fs, ∀ e v x, e.Open → f k.ser e v x = g k.ser.strict e v x)
    (_ : ∀ k ∈ fs, ∀ e v x e', e.Open → f k.ser e v x = .ok e' → e'.Open)
    (_ : ∀ k ∈ fs, ∀ c, k.serializer = some c → ∀ e v e', e.Open → c self e v = .ok e' → e'.Open) (e : Elem), e.Open →
      serFields f fl self d set enc fs e = serFields g fl self d set enc (fs.map Field.strict) e
  | [], _, _, _, _, _ => rfl
  | k :: fs, h, ho, hc, e, he => by
    have ih := fields_congr fl self d set enc fs (fun k hk => h k (by simp [hk])) (fun k hk => ho k (by simp [hk]))
      (fun k hk => hc k (by simp [hk]))
    simp only [List.map_cons, serFields, Field.strict]
    rw [ih e he]
    split
    · rfl
    · split
      · rfl
      · cases hs : k.serializer with
        | some c =>
          simp only
          refine bind_congr rfl fun e' h' => ih e' ?_
          obtain ⟨v, _, h1⟩ := bind_ok h'
          exact hc k (by simp) c hs _ _ _ he h1
        | none =>
          simp only
          refine bind_congr ?_ fun e' h' => ih e' ?_
          · cases getAttr d k.name with
            | ok v =>
              simp only [Out.bind]
              cases getItem enc k.name with
              | ok x => exact h k (by simp) e v x he
              | _ => rfl
            | _ => rfl
          · obtain ⟨v, _, h1⟩ := bind_ok h'
            obtain ⟨x, _, h2⟩ := bind_ok h1
            exact ho k (by simp) _ _ _ _ he h2

section
variable {env : Env} (hso : env.SerializersOpen) (hraw : env.Everywhere Ser.NotRaw)
include hso hraw

theorem model_congr {cls : String} {m : ModelSer} (hm : env.model cls = some m) (n : Nat)
    (ih : ∀ (s : Ser), s.Everywhere Ser.NotRaw → ∀ (fl : Flags) (el : Elem) (v enc : Val), el.Open →
      ser env n fl s el v enc = ser env.strict n fl s.strict el v enc) (fl : Flags) (el : Elem) (v enc : Val) (he : el.Open) :
    serModel (ser env n) m fl el v enc = serModel (ser env.strict n) m.strict fl el v enc := by
  have hr := hraw _ _ hm
  unfold ModelSer.Everywhere at hr
  unfold serModel ModelSer.strict
  cases v with
  | model c d set =>
    simp only
    cases hb : m.body with
    | fields fs =>
      rw [hb] at hr
      exact fields_congr _ _ _ _ _ fs (fun k hk e v x he => ih _ (hr k hk) _ e v x he)
        (fun k hk e v x e' he h => C31_open env hso hraw n _ _ (hr k hk) _ _ _ _ he h)
        (fun k hk c hc e v e' he h => hso _ _ _ hm hb k hk c hc _ _ _ _ he h) el he
    | root s =>
      rw [hb] at hr
      simp only [Body.strict]
      split
      · rfl
      · cases getAttr d "root" with
        | ok rv => exact ih s hr _ _ _ _ he
        | _ => rfl
  | _ => rfl

omit hso hraw in
theorem find_strict (cls : String) : ∀ alts : List Proxy,
    (alts.map Proxy.strict).find? (fun p => p.cls = cls) = (alts.find? fun p => p.cls = cls).map Proxy.strict
  | [] => rfl
  | p :: ps => by
    simp only [List.map_cons, List.find?_cons, find_strict cls ps]
    show (match decide (p.cls = cls) with | true => _ | false => _) = _
    cases decide (p.cls = cls) <;> rfl

omit hso hraw in
theorem get_strict (tag : String) : ∀ alts : Dict String Proxy,
    Dict.get? (alts.map fun kp => (kp.1, kp.2.strict)) tag = (Dict.get? alts tag).map Proxy.strict
  | [] => rfl
  | (k, p) :: ps => by
    simp only [List.map_cons, Dict.get?, get_strict tag ps]
    split <;> rfl

theorem ser_congr : ∀ (n : Nat) (s : Ser), s.Everywhere Ser.NotRaw → ∀ (fl : Flags) (el : Elem) (v enc : Val), el.Open →
    ser env n fl s el v enc = ser env.strict n fl s.strict el v enc
  | 0, _, _, _, _, _, _, _ => rfl
  | n + 1, s, hs, fl, el, v, enc, he => by
    have ih := ser_congr n
    show serStep env (ser env n) fl s el v enc = serStep env.strict (ser env.strict n) fl s.strict el v enc
    have hsub := (Ser.everywhere_iff.1 hs).2
    cases s with
    | text c nl => rfl
    | attr k c => rfl
    | elem nm ns m c nl => rfl
    | attrs a => rfl
    | mapElem a nm m => rfl
    | raw nm m c => rfl
    | proxy p =>
      simp only [serStep, Ser.strict, Env.strict, Proxy.strict]
      cases hm : env.model p.cls with
      | none => rfl
      | some m =>
        simp only [Option.map_some]
        split
        · rfl
        · split
          · rfl
          · split
            · rfl
            · exact bind_congr (model_congr hso hraw hm n ih fl _ v enc (open_make _ _ _)) fun _ _ => rfl
    | primUnion c inner => exact ih inner (hsub _ (by simp [Ser.subs])) _ _ _ _ he
    | modelUnion t c alts =>
      simp only [serStep, Ser.strict]
      cases v with
      | model cls d set =>
        simp only [find_strict]
        cases hp : alts.find? (fun p => p.cls = cls) with
        | none => rfl
        | some p =>
          exact ih (.proxy p) (hsub _ (by simp only [Ser.subs, List.mem_map]; exact ⟨p, List.mem_of_find?_eq_some hp, rfl⟩)) _ _ _ _ he
      | _ => rfl
    | tagged c d a m alts =>
      simp only [serStep, Ser.strict]
      cases enc with
      | dict dd =>
        simp only
        cases Dict.get? dd d with
        | none => rfl
        | some x =>
          cases x with
          | str tag =>
            simp only [get_strict]
            split
            · rfl
            · cases hp : Dict.get? alts tag with
              | none => rfl
              | some p =>
                exact ih (.proxy p) (hsub _ (by simp only [Ser.subs, List.mem_map]; exact ⟨(_, p), Dict.mem_of_get? hp, rfl⟩)) _ _ _ _ he
          | _ => rfl
      | _ => rfl
    | wrap path ns m c inner =>
      simp only [serStep, Ser.strict]
      split
      · rfl
      · split
        · rfl
        · exact ascend_congr _ _ _ (fun e he => ih inner (hsub _ (by simp [Ser.subs])) _ _ _ _ he) path el he
    | homog t c inner =>
      simp only [serStep, Ser.strict]
      have hi := hsub inner (by simp [Ser.subs])
      split
      · rfl
      · split
        · exact items_congr (fun e v x he => ih inner hi _ _ _ _ he)
            (fun e v x e' he h => C31_open env hso hraw n _ _ hi _ _ _ _ he h) fl _ _ el he
        · rfl
    | hetero t c inners =>
      simp only [serStep, Ser.strict, strictAll_eq, List.length_map]
      split
      · rfl
      · split
        · split
          · rfl
          · split
            · rfl
            · exact tuple_congr inners (fun s hs e v x he => ih s (hsub _ (by simpa [Ser.subs] using hs)) _ _ _ _ he)
                (fun s hs e v x e' he h => C31_open env hso hraw n _ _ (hsub _ (by simpa [Ser.subs] using hs)) _ _ _ _ he h) _ _ el he
        · rfl

/-- Writing an instance does not depend on the search mode. -/
theorem toXmlTree_strict (n : Nat) (fl : Flags) (cls : String) (v : Val) :
    toXmlTree env n fl cls v = toXmlTree env.strict n fl cls v := by
  unfold toXmlTree
  cases hm : env.model cls with
  | none => simp only [Env.strict, hm, Option.map_none]
  | some m =>
    simp only [Env.strict, hm, Option.map_some]
    have ho : ({ tag := m.elementName, nsmap := m.nsmap } : Elem).Open := .mk rfl (by simp)
    rw [model_congr hso hraw hm n (ser_congr hso hraw n) fl _ v _ ho]
    rfl

end
end Modes
end PXml
