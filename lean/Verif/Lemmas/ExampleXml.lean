import Verif.ExampleXml

/-! The parser of `Verif/ExampleXml.lean` reads what the printer has written. -/

namespace PXml
namespace Xml

mutual
/-- Only elements, with plain names. -/
def Printable : Node → Prop
  | .elem tag attrib _ _ _ children _ => IsName tag ∧ (∀ k ∈ attrib.keys, IsName k) ∧ PrintableList children
  | _ => False
def PrintableList : List Node → Prop
  | [] => True
  | n :: ns => Printable n ∧ PrintableList ns
end

theorem escapeChar_safe (a : Bool) (c x : Char) (h : x ∈ escapeChar a c) : x ≠ '<' ∧ x ≠ '"' := by
  unfold escapeChar at h
  cases a <;> split at h <;> simp at h <;> first | (rcases h with rfl | rfl | rfl | rfl | rfl | rfl <;> decide) |
    (rcases h with rfl | rfl | rfl | rfl | rfl <;> decide) | (rcases h with rfl | rfl | rfl | rfl <;> decide) | (subst h; decide) |
    (subst h; grind)

theorem escape_safe (a : Bool) (s : List Char) : ∀ x ∈ escape a s, x ≠ '<' ∧ x ≠ '"' := by
  intro x hx
  simp only [escape, List.mem_flatMap] at hx
  obtain ⟨c, _, hc⟩ := hx
  exact escapeChar_safe a c x hc

theorem unescape_plain {c : Char} (h1 : c ≠ '&') (h2 : c ≠ '\r') (cs : List Char) : unescape (c :: cs) = c :: unescape cs := by
  rw [unescape] <;> simp [h1, h2]

theorem unescape_char (a : Bool) (c : Char) (r : List Char) : unescape (escapeChar a c ++ r) = c :: unescape r := by
  have h : ∀ {c}, c ≠ '&' → c ≠ '\r' → unescape ([c] ++ r) = c :: unescape r := fun h1 h2 => unescape_plain h1 h2 r
  unfold escapeChar
  split
  case h_8 => exact h (by assumption) (by assumption)
  all_goals cases a <;> simp [unescape]

theorem unescape_escape (a : Bool) (s : List Char) : unescape (escape a s) = s := by
  induction s with
  | nil => rfl
  | cons c s ih => rw [escape, List.flatMap_cons, unescape_char, ← escape, ih]

theorem escape_nil (a : Bool) (s : List Char) : escape a s = [] ↔ s = [] := by
  constructor
  · intro h
    have := unescape_escape a s
    rw [h] at this
    exact this.symm
  · rintro rfl; rfl

theorem dropEmpty_textOf (t : Option String) : dropEmpty (textOf (printText t)) = dropEmpty t := by
  cases t with
  | none => rfl
  | some s =>
    simp only [printText, textOf, unescape_escape, String.ofList_toList]
    by_cases h : s = ""
    · subst h; rfl
    · have : escape false s.toList ≠ [] := by
        rw [Ne, escape_nil]
        intro h'
        exact h (by simpa using h')
      simp [this]

theorem textOf_printText (t : Option String) : textOf (printText t) = dropEmpty t := by
  have h := dropEmpty_textOf t
  rw [← h]
  cases t with
  | none => rfl
  | some s =>
    simp only [printText, textOf, unescape_escape, String.ofList_toList]
    by_cases h : s = ""
    · subst h; rfl
    · split <;> simp [dropEmpty, h]

theorem span_of {p : Char → Bool} (as : List Char) (rest : List Char) (h : ∀ c ∈ as, p c = true) (hr : ∀ c ∈ rest.head?, p c = false) :
    (as ++ rest).takeWhile p = as ∧ (as ++ rest).dropWhile p = rest := by
  induction as with
  | nil =>
    cases rest with
    | nil => exact ⟨rfl, rfl⟩
    | cons c cs =>
      have := hr c rfl
      simp [this]
  | cons a as ih =>
    have h1 := h a List.mem_cons_self
    have := ih fun c hc => h c (List.mem_cons_of_mem _ hc)
    simp [h1, this.1, this.2]

theorem printText_safe (t : Option String) : ∀ c ∈ printText t, (decide (c ≠ '<')) = true := by
  cases t with
  | none => simp [printText]
  | some s => intro c hc; simpa using (escape_safe _ s.toList c hc).1

theorem parseAttrs_print (attrib : Dict String String) (h : ∀ k ∈ attrib.keys, IsName k) (rest : List Char) :
    ∀ n, attrib.length < n → parseAttrs n (printAttrs attrib ++ '>' :: rest) = some (attrib, rest) := by
  induction attrib with
  | nil =>
    intro n hn
    cases n with
    | zero => omega
    | succ n => rfl
  | cons kv kvs ih =>
    intro n hn
    cases n with
    | zero => simp at hn
    | succ n =>
      obtain ⟨k, v⟩ := kv
      have hk := h k (by simp [Dict.keys])
      have ih := ih (fun k' hk' => h k' (by simp [Dict.keys] at hk' ⊢; exact .inr hk')) n (by simpa using hn)
      have h1 := span_of (p := isNameChar) k.toList ('=' :: '"' :: (escape true v.toList ++ '"' :: (printAttrs kvs ++ '>' :: rest))) hk.2
        (by simp [isNameChar])
      have h2 := span_of (p := fun c => decide (c ≠ '"')) (escape true v.toList) ('"' :: (printAttrs kvs ++ '>' :: rest))
        (fun c hc => by simpa using (escape_safe _ _ c hc).2) (by simp)
      simp only [printAttrs, List.cons_append, List.append_assoc, parseAttrs, h1.1, h1.2, h2.1, h2.2, ih, Option.map_some,
        String.ofList_toList, unescape_escape]

theorem printAttrs_length (attrib : Dict String String) : attrib.length ≤ (printAttrs attrib).length := by
  induction attrib with
  | nil => simp [printAttrs]
  | cons kv kvs ih => obtain ⟨k, v⟩ := kv; simp [printAttrs]; omega

theorem printNode_pos {t : Node} (h : Printable t) : 1 ≤ (printNode t).length := by
  cases t with
  | elem => simp [printNode]
  | comment => exact h.elim
  | pi => exact h.elim

/-- What is printed for nodes begins an element. -/
theorem printNodes_head (l : List Node) (h : PrintableList l) (rest : List Char) (hr : rest.head? = some '<') :
    (printNodes l ++ rest).head? = some '<' := by
  cases l with
  | nil => simpa [printNodes] using hr
  | cons n l =>
    cases n with
    | elem => simp [printNodes, printNode]
    | comment => exact h.1.elim
    | pi => exact h.1.elim

mutual
theorem parseNode_print (t : Node) (h : Printable t) (rest : List Char) (hr : ∀ c ∈ rest.head?, c = '<') (n : Nat)
    (hn : 2 * (printNode t).length ≤ n) : ∃ t', parseNode n (printNode t ++ rest) = some (t', rest) ∧ t'.dropPrefixes.dropLines = t.said := by
  cases t with
  | comment => exact h.elim
  | pi => exact h.elim
  | elem tag attrib nsmap text tail children line =>
    cases n with
    | zero => simp [printNode] at hn
    | succ n =>
      obtain ⟨h1, h2, h3⟩ := h
      have hl := printAttrs_length attrib
      simp only [printNode, List.length_cons, List.length_append] at hn
      have e0 : printNode (.elem tag attrib nsmap text tail children line) ++ rest = '<' :: (tag.toList ++ (printAttrs attrib ++ '>' ::
          (printText text ++ (printNodes children ++ '<' :: '/' :: (tag.toList ++ '>' :: (printText tail ++ rest)))))) := by
        simp [printNode]
      have htag : ∀ c ∈ (printAttrs attrib ++ '>' :: (printText text ++ (printNodes children ++ '<' :: '/' :: (tag.toList ++ '>' ::
          (printText tail ++ rest))))).head?, isNameChar c = false := by
        cases attrib with
        | nil => simp [printAttrs, isNameChar]
        | cons kv kvs => obtain ⟨k, v⟩ := kv; simp [printAttrs, isNameChar]
      have s1 := span_of (p := isNameChar) tag.toList _ h1.2 htag
      have s2 := span_of (p := fun c => decide (c ≠ '<')) (printText text) (printNodes children ++ '<' :: '/' :: (tag.toList ++ '>' ::
          (printText tail ++ rest))) (printText_safe text) (by
            intro c hc
            have := printNodes_head children h3 ('<' :: '/' :: (tag.toList ++ '>' :: (printText tail ++ rest))) rfl
            rw [this] at hc
            simp at hc
            simp [← hc])
      have s3 := span_of (p := isNameChar) tag.toList ('>' :: (printText tail ++ rest)) h1.2 (by simp [isNameChar])
      have s4 := span_of (p := fun c => decide (c ≠ '<')) (printText tail) rest (printText_safe tail) (by
        intro c hc
        simp [hr c hc])
      obtain ⟨cs', hc1, hc2⟩ := parseNodes_print children h3 (tag.toList ++ '>' :: (printText tail ++ rest)) n (by omega)
      have ha := parseAttrs_print attrib h2 (printText text ++ (printNodes children ++ '<' :: '/' :: (tag.toList ++ '>' ::
          (printText tail ++ rest)))) n (by omega)
      rw [e0]
      simp only [parseNode, s1.1, s1.2, ha, s2.1, s2.2, hc1, s3.1, s3.2, s4.1, s4.2, if_true]
      exact ⟨_, rfl, by simp [Node.said, Node.dropPrefixes, Node.dropLines, textOf_printText, hc2, String.ofList_toList]⟩
theorem parseNodes_print (l : List Node) (h : PrintableList l) (rest : List Char) (n : Nat) (hn : 2 * (printNodes l).length + 1 ≤ n) :
    ∃ l', parseNodes n (printNodes l ++ '<' :: '/' :: rest) = some (l', '<' :: '/' :: rest) ∧ Node.dropLinesList (Node.dropPrefixesList l') = Node.saidList l := by
  cases l with
  | nil =>
    cases n with
    | zero => omega
    | succ n => exact ⟨[], rfl, rfl⟩
  | cons c l =>
    cases n with
    | zero => omega
    | succ n =>
      obtain ⟨h1, h2⟩ := h
      have hp := printNode_pos h1
      simp only [printNodes, List.length_append] at hn
      obtain ⟨c', hc1, hc2⟩ := parseNode_print c h1 (printNodes l ++ '<' :: '/' :: rest) (by
        rw [printNodes_head l h2 _ rfl]; simp) n (by omega)
      obtain ⟨l', hl1, hl2⟩ := parseNodes_print l h2 rest n (by omega)
      refine ⟨c' :: l', ?_, by simp [Node.saidList, Node.dropPrefixesList, Node.dropLinesList, hc2, hl2]⟩
      simp only [printNodes, List.append_assoc]
      have : ∃ x xs, printNode c ++ (printNodes l ++ '<' :: '/' :: rest) = '<' :: x :: xs ∧ x ≠ '/' := by
        cases c with
        | comment => exact h1.elim
        | pi => exact h1.elim
        | elem tag attrib nsmap text tail children line =>
          obtain ⟨⟨h4, h5⟩, _⟩ := h1
          cases ht : tag.toList with
          | nil => exact absurd ht h4
          | cons x xs =>
            refine ⟨x, _, by simp [printNode, ht]; rfl, ?_⟩
            rintro rfl
            have := h5 '/' (by simp [ht])
            revert this
            decide
      obtain ⟨x, xs, hx, hx'⟩ := this
      rw [hx] at hc1 ⊢
      rw [parseNodes]
      · simp only [hc1, hl1, Option.map_some]
      · intro cs h
        injection h with _ h
        injection h with h _
        exact hx' h
end

theorem dropEmpty_dropEmpty (t : Option String) : dropEmpty (dropEmpty t) = dropEmpty t := by
  cases t with
  | none => rfl
  | some s => by_cases h : s = "" <;> simp [dropEmpty, h]

mutual
theorem said_drop (n : Node) : n.dropPrefixes.dropLines.said = n.said := by
  cases n with
  | elem => simp [Node.said, Node.dropPrefixes, Node.dropLines, saidList_drop]
  | comment => rfl
  | pi => rfl
theorem saidList_drop (l : List Node) : Node.saidList (Node.dropLinesList (Node.dropPrefixesList l)) = Node.saidList l := by
  cases l with
  | nil => rfl
  | cons n l => simp [Node.saidList, Node.dropPrefixesList, Node.dropLinesList, said_drop n, saidList_drop l]
end

mutual
theorem said_said (n : Node) : n.said.said = n.said := by
  cases n with
  | elem => simp [Node.said, dropEmpty_dropEmpty, saidList_said]
  | comment => simp [Node.said, dropEmpty_dropEmpty]
  | pi => simp [Node.said, dropEmpty_dropEmpty]
theorem saidList_said (l : List Node) : Node.saidList (Node.saidList l) = Node.saidList l := by
  cases l with
  | nil => rfl
  | cons n l => simp [Node.saidList, said_said n, saidList_said l]
end

/-- Every document of elements with plain names is parsed as it was printed, apart from empty texts. -/
theorem parsed (t : Node) (h : Printable t) : ∃ s t', print t = .ok s ∧ parse s = .ok t' ∧ t'.dropPrefixes.dropLines = t.said := by
  obtain ⟨t', h1, h2⟩ := parseNode_print t h [] (by simp) (2 * (printNode t).length + 1) (by omega)
  refine ⟨_, t', rfl, ?_, h2⟩
  simp only [List.append_nil] at h1
  simp [parse, h1]

theorem reparses (t : Node) (h : Printable t) : Reparses print parse t := by
  obtain ⟨s, t', h1, h2, h3⟩ := parsed t h
  exact ⟨s, t', h1, h2, by rw [← said_drop t', h3, said_said]⟩

end Xml
end PXml
