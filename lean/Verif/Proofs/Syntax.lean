import Verif.Spec.Syntax
import Verif.Spec.Macro
/-!
# The parser of declarations reads what is written

Completeness: each function of the parser applied to the text of something and a rest gives it and
the rest.  Soundness: the other way round.
-/

namespace Pomelo
open Spec

/-! ## Completeness -/

/-- The rest does not go on with a part of an element. -/
def NoPart (v : List Lexeme) : Prop := (∀ u, v ≠ .pipe :: u) ∧ (∀ u, v ≠ .question :: u) ∧ ∀ b u, v ≠ .paren b :: u

/-- The rest does not go on with an identifier. -/
def NoIdent (v : List Lexeme) : Prop := ∀ i u, v ≠ .ident i :: u

/-- The rest begins with a declaration, or is empty. -/
def DeclStart (v : List Lexeme) : Prop := v = [] ∨ (∃ u, v = .percent :: u) ∨ ∃ i u, v = .ident i :: u

theorem semiThen_text (d : Decl) (v : List Lexeme) : semiThen d (.semi :: v) = some (d, v) := rfl

theorem maybeSemi_text {s v : List Lexeme} (hs : Semi s) (hv : DeclStart v) : maybeSemi (s ++ v) = v := by
  rcases hs with rfl | rfl
  · rcases hv with rfl | ⟨u, rfl⟩ | ⟨i, u, rfl⟩ <;> rfl
  · rfl

theorem parseIdents_text (ids : List Ident) (v : List Lexeme) : parseIdents (ids.map .ident ++ .semi :: v) = some (ids, v) := by
  induction ids with
  | nil => rfl
  | cons i ids ih => simp only [List.map_cons, List.cons_append, parseIdents, ih]

theorem parseAttrs_text (n : Nat) {v : List Lexeme} (hv : ∀ u, v ≠ .attr :: u) : parseAttrs (List.replicate n .attr ++ v) = (decide (n ≠ 0), v) := by
  induction n with
  | zero =>
    rw [List.replicate_zero, List.nil_append]
    unfold parseAttrs
    split
    · rename_i u; exact absurd rfl (hv u)
    · simp
  | succ n ih => simp [List.replicate_succ, parseAttrs, ih]

theorem kw_find (k : Kw) : Kw.all.find? (fun k' => k'.ident = k.ident) = some k := by cases k <;> rfl

theorem parseDecl_kw (k : Kw) (v : List Lexeme) : parseDecl (kwText k ++ v) = parseKw k v := by
  simp only [kwText, List.cons_append, List.nil_append, parseDecl, parseDirective, kw_find]

theorem parsePipes_text (ids : List Ident) {v : List Lexeme} (hv : ∀ u, v ≠ .pipe :: u) : parsePipes (pipesText ids ++ v) = some (ids, v) := by
  induction ids with
  | nil =>
    unfold pipesText
    rw [List.flatMap_nil, List.nil_append]
    unfold parsePipes
    split
    · rename_i u _; exact absurd rfl (hv _)
    · rename_i u _; exact absurd rfl (hv _)
    · rfl
  | cons i ids ih =>
    have : pipesText (i :: ids) ++ v = .pipe :: .ident i :: (pipesText ids ++ v) := by simp [pipesText]
    rw [this]
    unfold parsePipes
    rw [ih]

theorem parseOpt_text {o : Bool} {v : List Lexeme} (hv : ∀ u, v ≠ .question :: u) : parseOpt ((if o then [.question] else []) ++ v) = (o, v) := by
  cases o
  · simp only [Bool.false_eq_true, if_false, List.nil_append]
    unfold parseOpt
    split
    · exact absurd rfl (hv _)
    · rfl
  · rfl

theorem parseAlias_text {a : Bool} {v : List Lexeme} (hv : ∀ b u, v ≠ .paren b :: u) : parseAlias ((if a then [.paren true] else []) ++ v) = some (a, v) := by
  cases a
  · simp only [Bool.false_eq_true, if_false, List.nil_append]
    unfold parseAlias
    split
    · exact absurd rfl (hv _ _)
    · exact absurd rfl (hv _ _)
    · rfl
  · rfl

theorem parseElem_text (i : Ident) (ids : List Ident) (o a : Bool) {v : List Lexeme} (hv : NoPart v) :
    parseElem i (pipesText ids ++ ((if o then [.question] else []) ++ ((if a then [.paren true] else []) ++ v))) = some (⟨i :: ids, o, a⟩, v) := by
  obtain ⟨h1, h2, h3⟩ := hv
  unfold parseElem
  rw [parsePipes_text]
  · simp only
    rw [parseOpt_text]
    · simp only
      rw [parseAlias_text h3]
    · intro u; cases a
      · exact h2 u
      · simp
  · intro u; cases o <;> cases a <;> simp [h1 u]

theorem elemText_cons {e : RhsElem} (he : e.toks ≠ []) (v : List Lexeme) : ∃ i ids, e = ⟨i :: ids, e.optional, e.alias⟩ ∧
    elemText e ++ v = .ident i :: (pipesText ids ++ ((if e.optional then [.question] else []) ++ ((if e.alias then [.paren true] else []) ++ v))) := by
  obtain ⟨toks, o, a⟩ := e
  cases toks with
  | nil => exact absurd rfl he
  | cons i ids => exact ⟨i, ids, rfl, by simp [elemText]⟩

theorem parseRhs_text : ∀ (rhs : List RhsElem) (n : Nat) {v : List Lexeme}, (∀ e ∈ rhs, e.toks ≠ []) → NoPart v → NoIdent v →
    (rhs.flatMap elemText ++ v).length ≤ n → parseRhs n (rhs.flatMap elemText ++ v) = some (rhs, v) := by
  intro rhs
  induction rhs with
  | nil =>
    intro n v _ _ hi _
    rw [List.flatMap_nil, List.nil_append]
    unfold parseRhs
    split
    · rfl
    · rename_i i u _; exact absurd rfl (hi _ _)
    · rfl
  | cons e rhs ih =>
    intro n v he hv hi hn
    rw [List.flatMap_cons, List.append_assoc] at hn ⊢
    obtain ⟨i, ids, h1, h2⟩ := elemText_cons (he e (by simp)) (rhs.flatMap elemText ++ v)
    have hnp : NoPart (rhs.flatMap elemText ++ v) := by
      cases rhs with
      | nil => exact hv
      | cons e' rhs =>
        rw [List.flatMap_cons, List.append_assoc]
        obtain ⟨i, ids, _, h⟩ := elemText_cons (he e' (by simp)) (rhs.flatMap elemText ++ v)
        rw [h]
        simp [NoPart]
    have hlen : (rhs.flatMap elemText ++ v).length < n := by
      rw [h2] at hn
      simp only [List.length_cons, List.length_append] at hn ⊢
      omega
    rw [h2]
    cases n with
    | zero => omega
    | succ n =>
      unfold parseRhs
      rw [parseElem_text _ _ _ _ hnp, ← h1]
      simp only
      rw [ih n (fun e' he' => he e' (by simp [he'])) hv hi (by omega)]

theorem parsePrec_text (p : Option Ident) {v : List Lexeme} (hv : ∀ b u, v ≠ .bracket b :: u) : parsePrec (precText p ++ v) = some (p, v) := by
  cases p
  · unfold precText
    rw [List.nil_append]
    unfold parsePrec
    split
    · exact absurd rfl (hv _ _)
    · exact absurd rfl (hv _ _)
    · rfl
  · rfl

theorem parseCode_none {v : List Lexeme} (hv : ∀ b c u, v ≠ .brace b c :: u) : parseCode v = some (none, v) := by
  unfold parseCode
  split
  · exact absurd rfl (hv _ _ _)
  · exact absurd rfl (hv _ _ _)
  · rfl

theorem parseRule_text {l : Ident} {rhs : List RhsElem} (p : Option Ident) {c : Option Nat} {v w : List Lexeme} (he : ∀ e ∈ rhs, e.toks ≠ [])
    (hp : p = none → NoPart v ∧ NoIdent v) (hb : ∀ b u, v ≠ .bracket b :: u) (hc : parseCode v = some (c, w)) :
    parseDecl (ruleText l rhs ++ (precText p ++ v)) = some (.rule l rhs c p, maybeSemi w) := by
  have h1 : NoPart (precText p ++ v) ∧ NoIdent (precText p ++ v) := by
    cases p
    · exact hp rfl
    · simp [precText, NoPart, NoIdent]
  have : ruleText l rhs ++ (precText p ++ v) = .ident l :: .colons :: .eq :: (rhs.flatMap elemText ++ (precText p ++ v)) := by simp [ruleText]
  rw [this]
  unfold parseDecl parseRule
  simp only
  rw [parseRhs_text rhs _ he h1.1 h1.2 (Nat.le_refl _)]
  simp only
  rw [parsePrec_text p hb]
  simp only [hc]

theorem parseDecl_says {d : Decl} {t v : List Lexeme} (h : Says d t) (hv : DeclStart v) : parseDecl (t ++ v) = some (d, v) := by
  cases h with
  | @type n i ty =>
    simp only [List.append_assoc, List.cons_append, List.nil_append, parseDecl, parseDirective]
    unfold parseType
    rw [parseAttrs_text n (by simp)]
    cases ty <;> rfl
  | ruleCode he hs =>
    rename_i l rhs p b n s
    rw [show ruleText l rhs ++ precText p ++ [Lexeme.brace b (some n)] ++ s ++ v = ruleText l rhs ++ (precText p ++ (.brace b (some n) :: (s ++ v))) by simp]
    rw [parseRule_text p he (fun _ => by simp [NoPart, NoIdent]) (by simp) rfl, maybeSemi_text hs hv]
  | ruleSemi he =>
    rename_i l rhs p
    rw [show ruleText l rhs ++ precText p ++ [Lexeme.semi] ++ v = ruleText l rhs ++ (precText p ++ (.semi :: v)) by simp]
    rw [parseRule_text p he (fun _ => by simp [NoPart, NoIdent]) (by simp) (parseCode_none (by simp))]
    rfl
  | rulePrec he =>
    rename_i l rhs i
    rw [List.append_assoc]
    rw [parseRule_text (some i) he (fun h => by cases h) (by rcases hv with rfl | ⟨u, rfl⟩ | ⟨i, u, rfl⟩ <;> simp)
      (parseCode_none (by rcases hv with rfl | ⟨u, rfl⟩ | ⟨i, u, rfl⟩ <;> simp))]
    rw [show maybeSemi v = v from maybeSemi_text (.inl rfl) hv]
  | «include» hs => rw [List.append_assoc, List.append_assoc, parseDecl_kw]; simp only [parseKw, parseInclude, List.cons_append, List.nil_append, maybeSemi_text hs hv]
  | syntaxError hs => rw [List.append_assoc, List.append_assoc, parseDecl_kw]; simp only [parseKw, parseBlock, List.cons_append, List.nil_append, maybeSemi_text hs hv]
  | parseFail hs => rw [List.append_assoc, List.append_assoc, parseDecl_kw]; simp only [parseKw, parseBlock, List.cons_append, List.nil_append, maybeSemi_text hs hv]
  | stackOverflow hs => rw [List.append_assoc, List.append_assoc, parseDecl_kw]; simp only [parseKw, parseBlock, List.cons_append, List.nil_append, maybeSemi_text hs hv]
  | left => rw [List.append_assoc, List.append_assoc, parseDecl_kw]; simp only [parseKw, parseListed, List.cons_append, List.nil_append, parseIdents_text]
  | right => rw [List.append_assoc, List.append_assoc, parseDecl_kw]; simp only [parseKw, parseListed, List.cons_append, List.nil_append, parseIdents_text]
  | nonassoc => rw [List.append_assoc, List.append_assoc, parseDecl_kw]; simp only [parseKw, parseListed, List.cons_append, List.nil_append, parseIdents_text]
  | fallback => rw [List.append_assoc, List.append_assoc, parseDecl_kw]; simp only [parseKw, parseHeaded, parseListed, List.cons_append, List.nil_append, parseIdents_text]
  | tokenClass => rw [List.append_assoc, List.append_assoc, parseDecl_kw]; simp only [parseKw, parseHeaded, parseListed, List.cons_append, List.nil_append, parseIdents_text]
  | stackSize =>
    rename_i n ty
    rw [List.append_assoc, List.append_assoc, List.append_assoc, parseDecl_kw]; cases ty <;> rfl
  | _ => rw [List.append_assoc, parseDecl_kw]; rfl

theorem writes_start {ds : List Decl} {ts : List Lexeme} (h : Writes ds ts) : DeclStart ts := by
  cases h with
  | nil => exact .inl rfl
  | cons h _ =>
    cases h <;> first
      | exact .inr (.inl ⟨_, rfl⟩)
      | exact .inr (.inr ⟨_, _, rfl⟩)
  | rule _ _ _ => exact .inr (.inr ⟨_, _, rfl⟩)

theorem says_ne_nil {d : Decl} {t : List Lexeme} (h : Says d t) : t ≠ [] := by cases h <;> simp [kwText, ruleText]

theorem parseAll_step {n : Nat} {ts us : List Lexeme} {d : Decl} {ds : List Decl} (hne : ts ≠ []) (h : parseDecl ts = some (d, us))
    (h2 : parseAll n us = some ds) : parseAll (n + 1) ts = some (d :: ds) := by
  cases ts with
  | nil => exact absurd rfl hne
  | cons t ts => unfold parseAll; rw [h]; simp only [h2]

theorem parseAll_writes {ds : List Decl} {ts : List Lexeme} (h : Writes ds ts) : ∀ n, ts.length ≤ n → parseAll n ts = some ds := by
  induction h with
  | nil => intro n _; cases n <;> rfl
  | @cons d t ds ts h hw ih =>
    intro n hn
    have := parseDecl_says h (writes_start hw)
    have hne := says_ne_nil h
    have hl : 0 < t.length := List.length_pos_iff.2 hne
    rw [List.length_append] at hn
    cases n with
    | zero => omega
    | succ n => exact parseAll_step (by simp [hne]) this (ih n (by omega))
  | @rule l rhs ds ts he hw hs ih =>
    intro n hn
    have hv : maybeSemi ts = ts := maybeSemi_text (.inl rfl) (writes_start hw)
    have := parseRule_text (l := l) (rhs := rhs) none (c := none) (v := ts) (w := ts) he
      (fun _ => by rcases hs with rfl | ⟨u, rfl⟩ <;> simp [NoPart, NoIdent]) (by rcases hs with rfl | ⟨u, rfl⟩ <;> simp)
      (parseCode_none (by rcases hs with rfl | ⟨u, rfl⟩ <;> simp))
    rw [hv] at this
    have hl : 0 < (ruleText l rhs).length := by simp [ruleText]
    rw [List.length_append] at hn
    cases n with
    | zero => omega
    | succ n => exact parseAll_step (by simp [ruleText]) this (ih n (by omega))

/-! ## Soundness -/

theorem semiThen_some {d d' : Decl} {ts v : List Lexeme} (h : semiThen d ts = some (d', v)) : d' = d ∧ ts = .semi :: v := by
  unfold semiThen at h
  split at h
  · cases h; exact ⟨rfl, rfl⟩
  · cases h

theorem maybeSemi_some (ts : List Lexeme) : ∃ s, Semi s ∧ ts = s ++ maybeSemi ts := by
  unfold maybeSemi
  split
  · exact ⟨[.semi], .inr rfl, rfl⟩
  · exact ⟨[], .inl rfl, rfl⟩

theorem parseIdents_some : ∀ {ts : List Lexeme} {ids : List Ident} {v : List Lexeme}, parseIdents ts = some (ids, v) → ts = ids.map .ident ++ .semi :: v := by
  intro ts
  induction ts with
  | nil => intro ids v h; cases h
  | cons t ts ih =>
    intro ids v h
    unfold parseIdents at h
    split at h
    · rename_i h1; cases h1; cases h; rfl
    · rename_i h1
      cases h1
      split at h
      · rename_i h2
        cases h
        rw [ih h2]; rfl
      · cases h
    · cases h

theorem parseAttrs_some : ∀ (ts : List Lexeme), ∃ n, (parseAttrs ts).1 = decide (n ≠ 0) ∧ ts = List.replicate n .attr ++ (parseAttrs ts).2 := by
  intro ts
  induction ts with
  | nil => exact ⟨0, rfl, rfl⟩
  | cons t ts ih =>
    unfold parseAttrs
    split
    · rename_i h; cases h
      obtain ⟨n, _, h2⟩ := ih
      refine ⟨n + 1, by simp, ?_⟩
      conv => lhs; rw [h2]
      rfl
    · exact ⟨0, rfl, rfl⟩

theorem parseListed_some {f : List Ident → Decl} {ts v : List Lexeme} {d : Decl} (h : parseListed f ts = some (d, v)) :
    ∃ ids, d = f ids ∧ ts = ids.map .ident ++ .semi :: v := by
  unfold parseListed at h
  split at h
  · rename_i h1
    cases h
    exact ⟨_, rfl, parseIdents_some h1⟩
  · cases h

theorem parseHeaded_some {f : Ident → List Ident → Decl} {ts v : List Lexeme} {d : Decl} (h : parseHeaded f ts = some (d, v)) :
    ∃ i ids, d = f i ids ∧ ts = .ident i :: ids.map .ident ++ .semi :: v := by
  unfold parseHeaded at h
  split at h
  · obtain ⟨ids, h1, h2⟩ := parseListed_some h
    exact ⟨_, ids, h1, by rw [h2]; rfl⟩
  · cases h

theorem parseNamed_some {f : Ident → Decl} {ts v : List Lexeme} {d : Decl} (h : parseNamed f ts = some (d, v)) :
    ∃ i, d = f i ∧ ts = .ident i :: .semi :: v := by
  unfold parseNamed at h
  split at h
  · obtain ⟨h1, h2⟩ := semiThen_some h
    exact ⟨_, h1, by rw [h2]⟩
  · cases h

theorem parseTyped_some {f : Ty → Decl} {ts v : List Lexeme} {d : Decl} (h : parseTyped f ts = some (d, v)) :
    ∃ t, d = f t ∧ ts = .ty t :: .semi :: v := by
  unfold parseTyped at h
  split at h
  · obtain ⟨h1, h2⟩ := semiThen_some h
    exact ⟨_, h1, by rw [h2]⟩
  · cases h

theorem parseBlock_some {d d' : Decl} {ts v : List Lexeme} (h : parseBlock d ts = some (d', v)) :
    d' = d ∧ ∃ b n s, Semi s ∧ ts = .brace b (some n) :: s ++ v := by
  unfold parseBlock at h
  split at h
  · rename_i b n us
    cases h
    obtain ⟨s, h1, h2⟩ := maybeSemi_some us
    refine ⟨rfl, b, n, s, h1, ?_⟩
    conv => lhs; rw [h2]
    rfl
  · cases h

theorem parseEnum_some {d : Decl} {ts v : List Lexeme} (h : parseEnum ts = some (d, v)) : ∃ it, d = .token it ∧ ts = .enumItem it :: .semi :: v := by
  unfold parseEnum at h
  split at h
  · obtain ⟨h1, h2⟩ := semiThen_some h
    exact ⟨_, h1, by rw [h2]⟩
  · cases h
theorem parseStruct_some {d : Decl} {ts v : List Lexeme} (h : parseStruct ts = some (d, v)) : ∃ it, d = .parser it ∧ ts = .structItem it :: .semi :: v := by
  unfold parseStruct at h
  split at h
  · obtain ⟨h1, h2⟩ := semiThen_some h
    exact ⟨_, h1, by rw [h2]⟩
  · cases h

theorem parseKw_some {k : Kw} {ts v : List Lexeme} {d : Decl} (h : parseKw k ts = some (d, v)) : ∃ t, kwText k ++ ts = t ++ v ∧ Says d t := by
  cases k <;> simp only [parseKw] at h
  case «module» => obtain ⟨i, rfl, rfl⟩ := parseNamed_some h; exact ⟨_, by simp, .module (i := i)⟩
  case «include» =>
    unfold parseInclude at h
    split at h
    · rename_i b us
      cases h
      obtain ⟨s, h1, h2⟩ := maybeSemi_some us
      refine ⟨_, ?_, .include (b := b) h1⟩
      conv => lhs; rw [h2]
      simp
    · cases h
  case syntaxError => obtain ⟨rfl, b, n, s, hs, rfl⟩ := parseBlock_some h; exact ⟨_, by simp, .syntaxError (b := b) (n := n) hs⟩
  case parseFail => obtain ⟨rfl, b, n, s, hs, rfl⟩ := parseBlock_some h; exact ⟨_, by simp, .parseFail (b := b) (n := n) hs⟩
  case stackOverflow => obtain ⟨rfl, b, n, s, hs, rfl⟩ := parseBlock_some h; exact ⟨_, by simp, .stackOverflow (b := b) (n := n) hs⟩
  case left => obtain ⟨ids, rfl, rfl⟩ := parseListed_some h; exact ⟨_, by simp, .left⟩
  case right => obtain ⟨ids, rfl, rfl⟩ := parseListed_some h; exact ⟨_, by simp, .right⟩
  case nonassoc => obtain ⟨ids, rfl, rfl⟩ := parseListed_some h; exact ⟨_, by simp, .nonassoc⟩
  case defaultType => obtain ⟨t, rfl, rfl⟩ := parseTyped_some h; exact ⟨_, by simp, .defaultType⟩
  case extraArgument => obtain ⟨t, rfl, rfl⟩ := parseTyped_some h; exact ⟨_, by simp, .extraArgument⟩
  case error => obtain ⟨t, rfl, rfl⟩ := parseTyped_some h; exact ⟨_, by simp, .error⟩
  case startSymbol => obtain ⟨i, rfl, rfl⟩ := parseNamed_some h; exact ⟨_, by simp, .startSymbol⟩
  case fallback => obtain ⟨i, ids, rfl, rfl⟩ := parseHeaded_some h; exact ⟨_, by simp, .fallback⟩
  case wildcard => obtain ⟨i, rfl, rfl⟩ := parseNamed_some h; exact ⟨_, by simp, .wildcard⟩
  case tokenClass => obtain ⟨i, ids, rfl, rfl⟩ := parseHeaded_some h; exact ⟨_, by simp, .tokenClass⟩
  case token => obtain ⟨it, rfl, rfl⟩ := parseEnum_some h; exact ⟨_, by simp, .token⟩
  case verbose => obtain ⟨rfl, rfl⟩ := semiThen_some h; exact ⟨_, by simp, .verbose⟩
  case extraToken => obtain ⟨t, rfl, rfl⟩ := parseTyped_some h; exact ⟨_, by simp, .extraToken⟩
  case stackSize =>
    unfold parseStackSize at h
    split at h
    · cases h; exact ⟨_, by simp [tyText], .stackSize (ty := none)⟩
    · obtain ⟨rfl, rfl⟩ := semiThen_some h; exact ⟨_, by simp [tyText], .stackSize (ty := some _)⟩
    · cases h
  case parser => obtain ⟨it, rfl, rfl⟩ := parseStruct_some h; exact ⟨_, by simp, .parser⟩

theorem parseType_some {ts v : List Lexeme} {d : Decl} (h : parseType ts = some (d, v)) : ∃ t, .percent :: .typeKw :: ts = t ++ v ∧ Says d t := by
  unfold parseType at h
  obtain ⟨n, h1, h2⟩ := parseAttrs_some ts
  rw [h1] at h
  split at h
  · rename_i i us h3
    cases h
    refine ⟨_, ?_, .type (n := n) (i := i) (ty := none)⟩
    rw [h2, h3]; simp [tyText]
  · rename_i i t us h3
    obtain ⟨rfl, rfl⟩ := semiThen_some h
    refine ⟨_, ?_, .type (n := n) (i := i) (ty := some t)⟩
    rw [h2, h3]; simp [tyText]
  · cases h

theorem parsePipes_some : ∀ (n : Nat) {ts : List Lexeme} {ids : List Ident} {v : List Lexeme}, ts.length ≤ n → parsePipes ts = some (ids, v) →
    ts = pipesText ids ++ v := by
  intro n
  induction n with
  | zero =>
    intro ts ids v hn h
    rw [Nat.le_zero, List.length_eq_zero_iff] at hn
    subst hn; cases h; rfl
  | succ n ih =>
    intro ts ids v hn h
    unfold parsePipes at h
    split at h
    · split at h
      · rename_i h2
        cases h
        rw [ih (by simp only [List.length_cons] at hn; omega) h2]
        simp [pipesText]
      · cases h
    · cases h
    · cases h; rfl

theorem parseOpt_some (ts : List Lexeme) : ts = (if (parseOpt ts).1 then [.question] else []) ++ (parseOpt ts).2 := by
  unfold parseOpt
  split <;> rfl

theorem parseAlias_some {ts v : List Lexeme} {a : Bool} (h : parseAlias ts = some (a, v)) : ts = (if a then [.paren true] else []) ++ v := by
  unfold parseAlias at h
  split at h <;> cases h <;> rfl

theorem parseElem_some {i : Ident} {ts v : List Lexeme} {e : RhsElem} (h : parseElem i ts = some (e, v)) : e.toks ≠ [] ∧ .ident i :: ts = elemText e ++ v := by
  unfold parseElem at h
  split at h
  · rename_i ids us h1
    split at h
    · rename_i a ws h2
      cases h
      refine ⟨by simp, ?_⟩
      rw [parsePipes_some _ (Nat.le_refl _) h1]
      conv => lhs; rw [parseOpt_some us, parseAlias_some h2]
      simp [elemText]
    · cases h
  · cases h

theorem parseRhs_some : ∀ (n : Nat) {ts v : List Lexeme} {rhs : List RhsElem}, ts.length ≤ n → parseRhs n ts = some (rhs, v) →
    (∀ e ∈ rhs, e.toks ≠ []) ∧ ts = rhs.flatMap elemText ++ v ∧ NoIdent v := by
  intro n
  induction n with
  | zero =>
    intro ts v rhs hn h
    rw [Nat.le_zero, List.length_eq_zero_iff] at hn
    subst hn; cases h; exact ⟨by simp, rfl, by simp [NoIdent]⟩
  | succ n ih =>
    intro ts v rhs hn h
    cases ts with
    | nil => cases h; exact ⟨by simp, rfl, by simp [NoIdent]⟩
    | cons t ts =>
      unfold parseRhs at h
      split at h
      · rename_i h0; cases h0
      · rename_i i us h1 h2
        cases h1; cases h2
        split at h
        · rename_i e ws h3
          obtain ⟨h4, h5⟩ := parseElem_some h3
          split at h
          · rename_i es xs h6
            cases h
            have hl : ws.length ≤ n := by
              have := congrArg List.length h5
              have h0 : 0 < (elemText e).length := by
                obtain ⟨i, ids, _, h⟩ := elemText_cons h4 []
                rw [List.append_nil] at h
                rw [h]; simp
              simp only [List.length_cons, List.length_append] at this hn
              omega
            obtain ⟨k1, k2, k3⟩ := ih hl h6
            refine ⟨?_, ?_, k3⟩
            · intro e' he'
              rcases List.mem_cons.1 he' with rfl | he'
              · exact h4
              · exact k1 e' he'
            · rw [h5, k2]; simp
          · cases h
        · cases h
      · rename_i h2
        cases h
        refine ⟨by simp, rfl, ?_⟩
        intro i u hh
        cases hh
        exact h2 _ _ rfl

theorem parsePrec_some {ts v : List Lexeme} {p : Option Ident} (h : parsePrec ts = some (p, v)) : ts = precText p ++ v := by
  unfold parsePrec at h
  split at h <;> cases h <;> rfl

theorem parseCode_some {ts v : List Lexeme} {c : Option Nat} (h : parseCode ts = some (c, v)) :
    (∃ b n, c = some n ∧ ts = .brace b (some n) :: v) ∨ (c = none ∧ ts = v) := by
  unfold parseCode at h
  split at h
  · cases h; exact .inl ⟨_, _, rfl, rfl⟩
  · cases h
  · cases h; exact .inr ⟨rfl, rfl⟩

/-- A declaration that has been read: it is there, closed or a rule that goes up to something that cannot belong to it. -/
theorem parseDecl_some {ts v : List Lexeme} {d : Decl} (h : parseDecl ts = some (d, v)) :
    ∃ t, ts = t ++ v ∧ (Says d t ∨ ∃ l rhs, d = .rule l rhs none none ∧ t = ruleText l rhs ∧ (∀ e ∈ rhs, e.toks ≠ []) ∧ NoIdent v) := by
  unfold parseDecl at h
  split at h
  · unfold parseDirective at h
    split at h
    · obtain ⟨t, h1, h2⟩ := parseType_some h
      exact ⟨t, h1, .inl h2⟩
    · rename_i i us
      split at h
      · rename_i k hk
        obtain ⟨t, h1, h2⟩ := parseKw_some h
        have : k.ident = i := by simpa using List.find?_some hk
        refine ⟨t, ?_, .inl h2⟩
        rw [← h1, ← this]; rfl
      · cases h
    · cases h
  · unfold parseRule at h
    split at h
    · rename_i l us _
      split at h
      · rename_i rhs ws h1
        obtain ⟨k1, k2, k3⟩ := parseRhs_some _ (Nat.le_refl _) h1
        split at h
        · rename_i p xs h2
          have h2 := parsePrec_some h2
          split at h
          · rename_i c ys h3
            cases h
            obtain ⟨s, hs, h4⟩ := maybeSemi_some ys
            generalize maybeSemi ys = v at h4 ⊢
            rw [h4] at h3
            rcases parseCode_some h3 with ⟨b, n, rfl, h5⟩ | ⟨rfl, h5⟩
            · refine ⟨_, ?_, .inl (.ruleCode (b := b) (s := s) (p := p) (l := l) k1 hs)⟩
              rw [k2, h2, h5]; simp [ruleText]
            · subst h5
              rcases hs with rfl | rfl
              · cases p with
                | none =>
                  refine ⟨ruleText l rhs, ?_, .inr ⟨l, rhs, rfl, rfl, k1, ?_⟩⟩
                  · rw [k2, h2]; simp [ruleText, precText]
                  · rw [h2] at k3; exact k3
                | some i =>
                  refine ⟨_, ?_, .inl (.rulePrec (i := i) (l := l) k1)⟩
                  rw [k2, h2]; simp [ruleText]
              · refine ⟨_, ?_, .inl (.ruleSemi (p := p) (l := l) k1)⟩
                rw [k2, h2]; simp [ruleText]
          · cases h
        · cases h
      · cases h
    · cases h

theorem parseAll_some : ∀ (n : Nat) {ts : List Lexeme} {ds : List Decl}, parseAll n ts = some ds → Writes ds ts := by
  intro n
  induction n with
  | zero =>
    intro ts ds h
    unfold parseAll at h
    split at h
    · cases h; exact .nil
    · cases h
    · rename_i h0 _ ; cases h0
  | succ n ih =>
    intro ts ds h
    unfold parseAll at h
    split at h
    · cases h; exact .nil
    · cases h
    · split at h
      · rename_i d us h1
        split at h
        · rename_i ds' h2
          cases h
          obtain ⟨t, rfl, h4⟩ := parseDecl_some h1
          have hn : n = _ := Nat.succ.inj (by assumption)
          rw [← hn] at h2
          have hw := ih h2
          rcases h4 with h4 | ⟨l, rhs, rfl, rfl, h5, h6⟩
          · exact .cons h4 hw
          · refine .rule h5 hw ?_
            rcases writes_start hw with h7 | h7 | ⟨i, u, h7⟩
            · exact .inl h7
            · exact .inr h7
            · exact absurd h7 (h6 i u)
        · cases h
      · cases h

theorem parseText_iff (ts : List Lexeme) (ds : List Decl) : parseText ts = some ds ↔ Writes ds ts :=
  ⟨parseAll_some _, fun h => parseAll_writes h _ (Nat.le_refl _)⟩

theorem says_written {d : Decl} {t : List Lexeme} (h : Says d t) : ∀ l rhs c p, d = .rule l rhs c p → ∀ e ∈ rhs, e.toks ≠ [] := by
  cases h <;> intro l rhs c p he <;> cases he <;> assumption

theorem writes_written {ds : List Decl} {ts : List Lexeme} (h : Writes ds ts) : written ds = true := by
  unfold written
  rw [List.all_eq_true]
  intro u hu
  rw [List.all_eq_true]
  suffices ∀ e ∈ u.rhs, e.toks ≠ [] by
    intro e he
    have := this e he
    cases h : e.toks <;> simp_all
  induction h with
  | nil => cases hu
  | @cons d t ds ts hs _ ih =>
    unfold rulesOf at hu
    rw [List.mem_filterMap] at hu
    obtain ⟨d', hd', hu⟩ := hu
    rcases List.mem_cons.1 hd' with rfl | hd'
    · cases d' <;> cases hu
      exact says_written hs _ _ _ _ rfl
    · exact ih (by unfold rulesOf; exact List.mem_filterMap.2 ⟨d', hd', hu⟩)
  | rule he _ _ ih =>
    unfold rulesOf at hu
    rw [List.mem_filterMap] at hu
    obtain ⟨d', hd', hu⟩ := hu
    rcases List.mem_cons.1 hd' with rfl | hd'
    · cases hu; exact he
    · exact ih (by unfold rulesOf; exact List.mem_filterMap.2 ⟨d', hd', hu⟩)

end Pomelo
