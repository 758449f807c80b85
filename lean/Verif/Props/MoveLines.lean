import Verif.SpecMoveLines
import Verif.Props.Invariance
import Verif.Props.Lines

/-!
# C106: reported lines move with the elements

Specification: `SpecMoveLines.lean`.
-/

namespace PXml

open Elem

namespace MoveLines

mutual
theorem fromNative_move (b : Backend) {g : Int → Int} (hg : g (-1) = -1) (n : Node) :
    fromNative b (n.moveLines g) = (fromNative b n).mapMeta (fun _ => id) id g := by
  cases n with
  | elem tag attrib nsmap text tail cs line =>
    have h : sourceLine b (line.map g) = g (sourceLine b line) := by cases b <;> cases line <;> simp [sourceLine, hg]
    simp [Node.moveLines, fromNative, mapMeta, fromNativeList_move b hg cs, h]
  | comment => simp [Node.moveLines, fromNative, mapMeta, mapMetaList, hg]
  | pi => simp [Node.moveLines, fromNative, mapMeta, mapMetaList, hg]
theorem fromNativeList_move (b : Backend) {g : Int → Int} (hg : g (-1) = -1) (l : List Node) :
    fromNativeList b (Node.moveLinesList g l) = mapMetaList (fun _ => id) id g (fromNativeList b l) := by
  cases l with
  | nil => rfl
  | cons n l =>
    have hd : (n.moveLines g).isComment = n.isComment := by cases n <;> rfl
    simp only [Node.moveLinesList, fromNativeList, hd]
    cases hc : n.isComment with
    | true => simpa using fromNativeList_move b hg l
    | false => simp [mapMetaList, fromNative_move b hg n, fromNativeList_move b hg l]
end

mutual
theorem move_move (f g : Int → Int) (n : Node) : (n.moveLines g).moveLines f = n.moveLines fun l => f (g l) := by
  cases n with
  | elem tag attrib nsmap text tail cs line =>
    simp only [Node.moveLines, moveList_move f g cs, Option.map_map]
    rfl
  | comment => rfl
  | pi => rfl
theorem moveList_move (f g : Int → Int) (l : List Node) :
    Node.moveLinesList f (Node.moveLinesList g l) = Node.moveLinesList (fun l => f (g l)) l := by
  cases l with
  | nil => rfl
  | cons n l => simp only [Node.moveLinesList, move_move f g n, moveList_move f g l]
end

mutual
theorem move_congr {f g : Int → Int} (n : Node) (h : ∀ l ∈ n.lines, f l = g l) : n.moveLines f = n.moveLines g := by
  cases n with
  | elem tag attrib nsmap text tail cs line =>
    simp only [Node.lines, List.mem_append] at h
    have h1 := moveList_congr cs fun l hl => h l (.inr hl)
    have h2 : line.map f = line.map g := by
      cases line with
      | none => rfl
      | some l => simp [h l (.inl (by simp))]
    simp only [Node.moveLines, h1, h2]
  | comment => rfl
  | pi => rfl
theorem moveList_congr {f g : Int → Int} (l : List Node) (h : ∀ x ∈ Node.linesList l, f x = g x) :
    Node.moveLinesList f l = Node.moveLinesList g l := by
  cases l with
  | nil => rfl
  | cons n l =>
    simp only [Node.linesList, List.mem_append] at h
    simp only [Node.moveLinesList, move_congr n fun x hx => h x (.inl hx), moveList_congr l fun x hx => h x (.inr hx)]
end

mutual
theorem lines_move (g : Int → Int) (n : Node) : (n.moveLines g).lines = n.lines.map g := by
  cases n with
  | elem tag attrib nsmap text tail cs line =>
    simp only [Node.moveLines, Node.lines, linesList_move g cs, List.map_append]
    cases line <;> rfl
  | comment => rfl
  | pi => rfl
theorem linesList_move (g : Int → Int) (l : List Node) : Node.linesList (Node.moveLinesList g l) = (Node.linesList l).map g := by
  cases l with
  | nil => rfl
  | cons n l => simp only [Node.moveLinesList, Node.linesList, lines_move g n, linesList_move g l, List.map_append]
end

theorem move_tag (g : Int → Int) (n : Node) : (n.moveLines g).tag = n.tag := by cases n <;> rfl

/-- Known lines are found in the same places. -/
theorem lineFor_alike {fl : Int → Int} (hk : ∀ i, fl i = -1 ↔ i = -1) {sm1 sm2 : SMap} (h : SmRel fl sm1 sm2) (loc : Loc) :
    fl (lineFor sm1 loc) = fl (lineFor sm2 loc) := by
  have h0 : fl (-1) = -1 := (hk _).2 rfl
  have key : ∀ l, fl (lineForRev sm1 l) = fl (lineForRev sm2 l) := by
    intro l
    induction l with
    | nil => rfl
    | cons p ps ih =>
      have h1 := h (p :: ps).reverse
      simp only [lineForRev]
      cases h2 : sm1.get? (p :: ps).reverse with
      | none =>
        cases h3 : sm2.get? (p :: ps).reverse with
        | none => exact ih
        | some b =>
          rw [h2, h3] at h1
          simp only [Option.getD_none, Option.getD_some, h0] at h1
          have := (hk b).1 h1.symm
          simp only [this, if_true]
          exact ih
      | some a =>
        cases h3 : sm2.get? (p :: ps).reverse with
        | none =>
          rw [h2, h3] at h1
          simp only [Option.getD_none, Option.getD_some, h0] at h1
          have := (hk a).1 h1
          simp only [this, if_true]
          exact ih
        | some b =>
          rw [h2, h3] at h1
          simp only [Option.getD_some] at h1
          have hab : a = -1 ↔ b = -1 := by rw [← hk a, ← hk b, h1]
          simp only
          by_cases ha : a = -1
          · simp only [ha, hab.1 ha, if_true]
            exact ih
          · have hb : b ≠ -1 := fun hb => ha (hab.2 hb)
            simp only [ha, hb, if_false]
            exact h1
  exact key loc.reverse

/-- Documents that are the same after normalising the lines are read alike, up to this normalisation. -/
theorem alike (env : Env) (hno : env.NoValidators) (eas : Bool) (n : Nat) (cls : String) (doc1 doc2 : Node) {fl : Int → Int}
    (hf : ∀ i, fl (fl i) = fl i) (hk : ∀ i, fl i = -1 ↔ i = -1) (h : doc1.moveLines fl = doc2.moveLines fl) :
    (fromXmlTree env eas n cls doc1).1.lines fl = (fromXmlTree env eas n cls doc2).1.lines fl := by
  have hE : env.Everywhere (Ser.Allowed .any True True) := by
    have h : ∀ s : Ser, s.Allowed .any True True := by
      intro s; refine ⟨fun _ _ => trivial, ?_⟩
      cases s <;> first | trivial | exact fun _ => trivial | exact fun _ _ _ => trivial
    intro c m hm
    cases hb : m.body with
    | fields fs => simp only [ModelSer.Everywhere, hb]; exact fun f _ => Ser.everywhere_of_all h _
    | root s => simp only [ModelSer.Everywhere, hb]; exact Ser.everywhere_of_all h _
  have h0 : fl (-1) = -1 := (hk _).2 rfl
  exact (fromXmlTree_agree (metaSim (env1 := env) (env2 := env) eas
    (fx := fun _ => id) (X := fun _ => True) (own := fun _ => True) (ft := id) (fl := fl) (raw := True) (forbid := True) rfl rfl
    (fun _ _ h loc => lineFor_alike hk h loc) (fun _ _ _ => rfl)
    (fun _ => rfl) (fun _ => ⟨rfl, rfl⟩) (fun _ _ _ _ => rfl) (fun _ _ _ => rfl) hf (fun _ _ _ _ => trivial) hno (fun _ _ _ _ => trivial)) hE n cls doc1 doc2
    (by rw [← move_tag fl doc1, h, move_tag])
    ⟨by rw [← fromNative_move env.backend h0, ← fromNative_move env.backend h0, h], fromNative_noNs _ _, fromNative_noNs _ _⟩).1.lines_eq

/-- Only the lines that occur matter. -/
theorem lines_congr {o : Out Val} {f g : Int → Int} (h : ∀ e, o = .verr e → ∀ x ∈ e.errs, ∃ l, x.line = some l ∧ f l = g l) : o.lines f = o.lines g := by
  cases o with
  | verr e =>
    simp only [Out.lines, VErr.lines, Out.verr.injEq, VErr.mk.injEq, true_and]
    apply List.map_congr_left
    intro x hx
    obtain ⟨l, h1, h2⟩ := h e rfl x hx
    simp [h1, h2]
  | _ => rfl

theorem lines_lines (o : Out Val) (f g : Int → Int) : (o.lines f).lines g = o.lines fun l => g (f l) := by
  cases o with
  | verr e => simp [Out.lines, VErr.lines, Function.comp_def]
  | _ => rfl

theorem lines_self (o : Out Val) : o.lines (fun l => l) = o := by
  cases o with
  | verr e => simp [Out.lines, VErr.lines]
  | _ => rfl

end MoveLines

open MoveLines in
/-- C106: when the elements of a document are on other lines (blank lines, broken lines, another header), the same is read: the same instance, the same
exception, or the same errors, whose line numbers are those where the lines have moved to. -/
theorem C106_lines_move (env : Env) (hno : env.NoValidators) (eas : Bool) (n : Nat) (cls : String) (doc : Node) (hdoc : doc.Numbered) (move : Int → Int)
    (hmove : LineMove move) :
    (fromXmlTree env eas n cls (doc.moveLines move)).1 = (fromXmlTree env eas n cls doc).1.lines move := by
  obtain ⟨hm1, hm2⟩ := hmove
  let code : Int → Int := fun l => if 0 ≤ l then -2 - l else l
  let f1 : Int → Int := fun x => if x ≤ -2 then -2 - x else x
  let f2 : Int → Int := fun x => if x ≤ -2 then move (-2 - x) else x
  have hin := fun doc e h => C16_every_error_has_a_line_partial env hno eas n cls doc e h
  have a1 := alike env hno eas n cls doc (doc.moveLines code) (fl := f1) (by intro i; simp only [f1]; grind) (by intro i; simp only [f1]; grind) (by
    rw [move_move]
    refine move_congr doc fun l hl => ?_
    have := hdoc l hl
    simp only [f1, code]
    grind)
  have a2 := alike env hno eas n cls (doc.moveLines move) (doc.moveLines code) (fl := f2)
    (by intro i; simp only [f2]; have := hm2 (-2 - i); grind) (by intro i; simp only [f2]; have := hm2 (-2 - i); grind) (by
    rw [move_move, move_move]
    refine move_congr doc fun l hl => ?_
    have h1 := hdoc l hl
    have h2 := hm2 l h1
    have h3 : -2 - (-2 - l) = l := by omega
    simp only [f2, code]
    grind)
  have b1 : (fromXmlTree env eas n cls (doc.moveLines move)).1.lines f2 = (fromXmlTree env eas n cls (doc.moveLines move)).1 := by
    rw [lines_congr (g := fun l => l), lines_self]
    intro e he x hx
    obtain ⟨l, h1, h2⟩ := hin _ e he x hx
    refine ⟨l, h1, ?_⟩
    rw [lines_move, List.mem_map] at h2
    have : -1 ≤ l := by
      rcases h2 with h2 | ⟨k, hk, rfl⟩
      · omega
      · have := hm2 k (hdoc k hk)
        omega
    simp only [f2]
    grind
  have b2 : (fromXmlTree env eas n cls (doc.moveLines code)).1.lines f2 = ((fromXmlTree env eas n cls (doc.moveLines code)).1.lines f1).lines move := by
    rw [lines_lines]
    refine lines_congr fun e he x hx => ?_
    obtain ⟨l, h1, h2⟩ := hin _ e he x hx
    refine ⟨l, h1, ?_⟩
    rw [lines_move, List.mem_map] at h2
    rcases h2 with rfl | ⟨k, hk, rfl⟩
    · simp only [f1, f2]
      simp [hm1]
    · have h0 := hdoc k hk
      simp only [f1, f2, code, h0, if_true]
      have : -2 - k ≤ -2 := by omega
      simp [this]
  have b3 : (fromXmlTree env eas n cls doc).1.lines f1 = (fromXmlTree env eas n cls doc).1 := by
    rw [lines_congr (g := fun l => l), lines_self]
    intro e he x hx
    obtain ⟨l, h1, h2⟩ := hin _ e he x hx
    refine ⟨l, h1, ?_⟩
    have : -1 ≤ l := by
      rcases h2 with h2 | h2
      · omega
      · have := hdoc l h2
        omega
    simp only [f1]
    grind
  rw [← b1, a2, b2, ← a1, b3]

open MoveLines in
/-- C106: documents that differ in line numbers only are read alike, line numbers of errors aside; in particular the same instance is read. -/
theorem C106_only_lines (env : Env) (hno : env.NoValidators) (eas : Bool) (n : Nat) (cls : String) (doc1 doc2 : Node) (h1 : doc1.Numbered) (h2 : doc2.Numbered)
    (h : doc1.moveLines (fun _ => 0) = doc2.moveLines fun _ => 0) :
    (fromXmlTree env eas n cls doc1).1.noLines = (fromXmlTree env eas n cls doc2).1.noLines ∧
      ∀ v, (fromXmlTree env eas n cls doc1).1 = .ok v → (fromXmlTree env eas n cls doc2).1 = .ok v := by
  have key : (fromXmlTree env eas n cls doc1).1.noLines = (fromXmlTree env eas n cls doc2).1.noLines := by
    let zero : Int → Int := fun l => if l = -1 then -1 else 0
    have hz : LineMove zero := ⟨rfl, fun l hl => by simp only [zero]; grind⟩
    have e1 : ∀ d : Node, d.Numbered → d.moveLines (fun _ => 0) = d.moveLines zero := fun d hd =>
      move_congr d fun l hl => by
        have := hd l hl
        simp only [zero]
        grind
    have k1 := C106_lines_move env hno eas n cls doc1 h1 zero hz
    have k2 := C106_lines_move env hno eas n cls doc2 h2 zero hz
    rw [← e1 doc1 h1, h, e1 doc2 h2, k2] at k1
    have := congrArg Out.noLines k1
    simp only [Out.noLines, lines_lines] at this
    exact this.symm
  refine ⟨key, fun v hv => ?_⟩
  rw [hv] at key
  cases hx : (fromXmlTree env eas n cls doc2).1 <;> rw [hx] at key <;> simp_all [Out.noLines, Out.lines]

namespace Ex

/-- A person whose `home` has no `zip`. -/
def homeless : Node :=
  el "person" none [
    el "name" (some "Ann") [] [] (some 2),
    el "home" (some "Main St") [] [] (some 4)]
    [("id", "7")] (some 1)

/-- Three more lines at the top. -/
def lower (l : Int) : Int := if l = -1 then -1 else l + 3

theorem lower_move : LineMove lower := ⟨rfl, fun l hl => by unfold lower; split <;> omega⟩

theorem homeless_numbered : homeless.Numbered := by simp [Node.Numbered, homeless, el, Node.lines, Node.linesList]

/-- Non-vacuity of `C106_lines_move`: there is an error on line 4 … -/
example : (fromXmlTree (env .ordered) false 9 "Person" homeless).1.lines lower = (fromXmlTree (env .ordered) false 9 "Person" (homeless.moveLines lower)).1 :=
  (C106_lines_move (env .ordered) noValidators false 9 "Person" homeless homeless_numbered lower lower_move).symm

/-- The lines of the errors. -/
def errLines : Out Val → List (Option Int)
  | .verr e => e.errs.map LineErr.line
  | _ => []

/-- … and then on line 7. -/
example : errLines (fromXmlTree (env .ordered) false 9 "Person" homeless).1 = [some 4] ∧
    errLines (fromXmlTree (env .ordered) false 9 "Person" (homeless.moveLines lower)).1 = [some 7] := ⟨by kernel_rfl, by kernel_rfl⟩

/-- Non-vacuity of `C106_only_lines`: the complete person, and the same three lines further down. -/
example : (fromXmlTree (env .ordered) false 9 "Person" (personDoc.moveLines lower)).1.strings = (fromXmlTree (env .ordered) false 9 "Person" personDoc).1.strings := by
  have hn : personDoc.Numbered := by simp [Node.Numbered, personDoc, el, Node.lines, Node.linesList]
  have hn' : (personDoc.moveLines lower).Numbered := by
    intro l hl
    rw [MoveLines.lines_move, List.mem_map] at hl
    obtain ⟨k, hk, rfl⟩ := hl
    exact lower_move.2 k (hn k hk)
  obtain ⟨h1, _⟩ := C106_only_lines (env .ordered) noValidators false 9 "Person" (personDoc.moveLines lower) personDoc hn' hn (MoveLines.move_move _ _ _)
  have h2 : ∀ o : Out Val, o.noLines.strings = o.strings := fun o => by cases o <;> rfl
  rw [← h2, h1, h2]

end Ex

end PXml
