import Verif.Proofs.Settled
import Verif.Proofs.Tags
import Verif.Proofs.RunCalls
import Verif.Proofs.Rows
import Verif.Proofs.GenCauses
/-! # The parser follows the trees of the automaton -/

namespace Pomelo

open Spec

variable {V X E : Type}

section
variable {ord : List (SymbolId × SymbolId) → List (SymbolId × SymbolId)} {ds : List Decl} {t : Tables} {s : CSpec ord ds t} {dflt : SymbolId}

/-- `Drive` for trees in which tokens stand for themselves -/
inductive PDrive (s : CSpec ord ds t) : StateId → List (GTree V) → Nat → List SymbolId → StateId → Prop
  | nil {q n} : PDrive s q [] n [] q
  | leaf {q tok ts n γ a Y k q'} : a < s.g.syms.length → (s.g.sym a).kind = .terminal → a ≠ 0 → tok.major = (s.g.sym a).index →
      Reads s.g Y a → s.g.Trans s.sts q Y k → t.findShift (s.num q) tok.major = .ok (s.num k) →
      PDrive s k ts n γ q' → PDrive s q (.leaf tok :: ts) n (Y :: γ) q'
  | node {q r kids ts n γ q1 b k q'} : PDrive s q kids (nextOf ts n) (s.g.rhsSyms r) q1 → s.g.CanReduce s.sts q1 b r →
      t.findShift (s.num q1) (nextOf ts n) = .ok (t.nState + r) → s.g.Trans s.sts q (s.g.rule r).lhs k →
      PDrive s k ts n γ q' → PDrive s q (.node r kids :: ts) n ((s.g.rule r).lhs :: γ) q'

theorem PDrive.path {q q' : StateId} {ts : List (GTree V)} {n : Nat} {γ δ : List SymbolId} (h : PDrive s q ts n γ q') (hp : s.g.Path s.sts δ q) :
    s.g.Path s.sts (δ ++ γ) q' := by
  induction h generalizing δ with
  | nil => simpa using hp
  | leaf _ _ _ _ _ e _ _ ih => have := ih (.snoc hp e); simpa using this
  | node _ _ _ e _ _ ih => have := ih (.snoc hp e); simpa using this

theorem PDrive.length {q q' : StateId} {ts : List (GTree V)} {n : Nat} {γ : List SymbolId} (h : PDrive s q ts n γ q') : ts.length = γ.length := by
  induction h with
  | nil => rfl
  | leaf _ _ _ _ _ _ _ _ ih => simp [ih]
  | node _ _ _ _ _ _ ih => simp [ih]

theorem wildUnbound_of_none {ds : List Decl} (h : wildcardOf ds = none) : wildUnbound ds = true := by
  unfold wildUnbound
  rw [Bool.or_eq_true, List.all_eq_true]
  refine .inr ?_
  intro u _
  rw [List.all_eq_true]
  intro e _
  rw [Bool.or_eq_true]
  right
  rw [List.all_eq_true]
  intro j _
  rw [h]
  simp

/-- In a state where the wildcard is reduced nothing else is done; and it has no fallback. -/
structure CSpec.WildOk (s : CSpec ord ds t) : Prop where
  fb : ∀ w, s.g.wildcard = some w → (s.g.sym w).fallback = none
  shift : ∀ w, s.g.wildcard = some w → ∀ q r, s.g.CanReduce s.sts q w r → ∀ k, ¬ s.g.CanShift s.sts q w k
  reduce : ∀ w, s.g.wildcard = some w → ∀ q r, s.g.CanReduce s.sts q w r → ∀ a r', s.g.CanReduce s.sts q a r' → r = r'

theorem CSpec.WildOk.of_none (h : s.g.wildcard = none) : s.WildOk := by
  constructor <;> (intro _ hw; rw [h] at hw; cases hw)

theorem Spec.WildAlone.ok (m : Made s dflt) (hs : s.g.Settled s.sts) (h : WildAlone s.g) : s.WildOk where
  fb _ hw := h.noFallback hw
  shift _ _ _ _ h1 _ h2 := hs.sr h2 h1
  reduce _ hw q _ h1 _ _ h2 := by
    obtain ⟨γ, hp⟩ := m.auto.exists_path q (canReduce_rule m.inv m.auto h1).2.1
    exact h.reduces hw ((reducesOn_iff m.inv m.auto hp).2 h1) ((reducesOn_iff m.inv m.auto hp).2 h2)

/-- The wildcard is not in a class whose value is used, or there is no default type. -/
def CSpec.AliasW (s : CSpec ord ds t) : Prop := ∀ r, r < s.g.rules.length →
  ((s.g.rule r).lhs = s.g.start.getD 0 ∨ ∃ r', r' < s.g.rules.length ∧ (s.g.rule r).lhs ∈ s.g.rhsSyms r') → ∀ x ∈ (s.g.rule r).rhs, x.alias = true →
  ∀ c, Reads s.g x.sym c → s.g.wildcard ≠ some c ∨ s.g.defaultType = none

theorem CSpec.AliasW.of_none (h : s.g.wildcard = none) : s.AliasW := fun _ _ _ _ _ _ _ _ => .inl (by rw [h]; simp)

theorem Made.aliasW (m : Made s dflt) (ho : OrdOk ord) (hf : flat ds = true) (b : Bridge ord ds s.g) (h : wildUnbound ds = true) : s.AliasW := by
  intro r hr hused x hx ha c hrd
  unfold wildUnbound at h
  rcases Bool.or_eq_true _ _ ▸ h with h | h
  · exact .inr (by rw [b.defaultType, b.decl.defaultType]; simpa using h)
  refine .inl fun hw => ?_
  obtain ⟨hk, hc, hP⟩ := m.alias_all ho hf b h hr hused hx ha hrd
  obtain ⟨h1, h2⟩ := m.inv.wild c hw
  rw [b.name hc] at h2
  cases hn : (b.gD.sym c).name with
  | ident j =>
    have := hP j hn
    rw [decide_eq_true_eq] at this
    exact this ((b.wild_name hc hn).1 hw)
  | _ => rw [hn] at h2; cases h2

/-- What is left of the wildcard's actions in a row whose default is the rule `r` -/
theorem Made.wild_row (m : Made s dflt) (hw : s.WildOk) {q : StateId} (hq : q < s.sts.length) {a : SymbolId} {r : RuleId} (h : s.g.CanReduce s.sts q a r)
    {dd : Option RuleId} {ig : List SymbolId} (hc : CompSpec s.g dflt (s.acts.getD q []) (s.acts'.getD q []) dd ig) (ho : OwnSpec s.g dflt (s.acts.getD q []) (s.acts'.getD q []) dd ig)
    (hd : dd = some r) : ∀ w, s.g.wildcard = some w → ownOf (s.acts'.getD q []) w = none ∨ ownOf (s.acts'.getD q []) w = some (.reduce r) := by
  intro w hwc
  have hwl := m.inv.wild w hwc
  have hwk : (s.g.sym w).kind ≠ .nonTerminal := by
    intro h'
    rcases m.inv.isTok_kind hwl.1 hwl.2 with h2 | h2 <;> rw [h'] at h2 <;> cases h2
  have hwd : w ≠ dflt := by rintro rfl; exact hwk (m.inv.default_name m.dlt m.didx)
  obtain ⟨sh, rd, h1, h2, hout⟩ := m.outcome hq hwk
  generalize hL : lives (onSym w (s.acts.getD q [])) = L at hout
  cases hout with
  | nothing => exact .inl (ho.nothing w hwd hL)
  | @shift k => exact absurd rfl ((hc.dSome r hd).2 ⟨w, .shift k⟩ (mem_of_lives (by rw [hL]; simp)) (not_ignored hc.ign (hw.fb w hwc)) hwc k)
  | @reduce r' e =>
    have := hw.reduce w hwc q r' ((h2 r').1 e) a r h
    subst this
    rcases ho.reduce w hwd _ hL with ⟨h3, _⟩ | ⟨h3, _⟩
    · exact .inr h3
    · exact .inl h3
  | @error k _ c e _ e2 => exact absurd ((h1 k).1 (e ▸ List.mem_singleton_self _)) (hw.shift w hwc q c ((h2 c).1 e2) k)

/-- A shift that beats every reduction on the same token is the action that is found. -/
theorem Made.look_shift_wins (m : Made s dflt) (ho : OrdOk ord) (hA : apart ord ds = true) {q k : StateId} {a Y : SymbolId}
    (ha : a < s.g.syms.length) (hk : (s.g.sym a).kind = .terminal) (hr : Reads s.g Y a) (hT : s.g.Trans s.sts q Y k)
    (hs : ∀ r, s.g.CanReduce s.sts q a r → s.g.TokVs a r .gt) :
    t.findShift (s.num q) (s.g.sym a).index = .ok (s.num k) := by
  have hkk : (s.g.sym a).kind ≠ .nonTerminal := by rw [hk]; simp
  have hcs := hT.canShift hr
  obtain ⟨sh, rd, h1, h2, hout⟩ := m.outcome hT.src hkk
  have hno : ∀ {r o}, s.g.TokVs a r .gt → s.g.TokVs a r o → o = .gt := by
    rintro r o ⟨p, q, e1, e2, e3⟩ ⟨p', q', f1, f2, f3⟩
    rw [e1] at f1; rw [e2] at f2; cases f1; cases f2
    exact f3.symm.trans e3
  have hL : lives (onSym a (s.acts.getD q [])) = [.shift k] := by
    have hkm := (h1 k).2 hcs
    generalize hL : lives (onSym a (s.acts.getD q [])) = L at hout
    cases hout with
    | nothing e _ => rw [e] at hkm; cases hkm
    | shift e _ => rw [e, List.mem_singleton] at hkm; rw [hkm]
    | @reduce r e _ e3 => cases hno (hs r ((h2 r).1 e)) (e3 (by intro e; rw [e] at hkm; cases hkm))
    | @error _ _ c _ _ e e3 => cases hno (hs c ((h2 c).1 e)) e3
  have hp := m.exact ho hT.src hkk hL (by intro _ h; cases h)
  have := m.tok_lookup hA hT.src hp ha hkk
  rwa [m.code_shift] at this

/-- A reduction that beats the shifts on the same token is the action that is found. -/
theorem Made.look_reduce_wins (m : Made s dflt) (ho : OrdOk ord) (hA : apart ord ds = true) (hw : s.WildOk) {q : StateId} {a : SymbolId} {r : RuleId}
    (h : s.g.CanReduce s.sts q a r) (hs : ∀ k, s.g.CanShift s.sts q a k → s.g.TokVs a r .lt) (hr : ∀ r', s.g.CanReduce s.sts q a r' → r' = r) :
    t.findShift (s.num q) (s.g.sym a).index = .ok (t.nState + r) := by
  have hkk : (s.g.sym a).kind ≠ .nonTerminal := by rw [h.2.1]; simp
  have hq := (canReduce_rule m.inv m.auto h).2.1
  obtain ⟨sh, rd, h1, h2, hout⟩ := m.outcome hq hkk
  have hno : ∀ {r o}, s.g.TokVs a r .lt → s.g.TokVs a r o → o = .lt := by
    rintro r o ⟨p, q, e1, e2, e3⟩ ⟨p', q', f1, f2, f3⟩
    rw [e1] at f1; rw [e2] at f2; cases f1; cases f2
    exact f3.symm.trans e3
  have hL : lives (onSym a (s.acts.getD q [])) = [.reduce r] := by
    have hrm := (h2 r).2 h
    generalize hL : lives (onSym a (s.acts.getD q [])) = L at hout
    cases hout with
    | nothing _ e => rw [e] at hrm; cases hrm
    | @shift k e e2 => cases hno (hs k ((h1 k).1 (e ▸ List.mem_singleton_self _))) (e2 r hrm)
    | reduce e => rw [hr _ ((h2 _).1 e)]
    | @error k _ c e _ e2 e3 =>
      have := hr c ((h2 c).1 e2)
      subst this
      cases hno (hs k ((h1 k).1 (e ▸ List.mem_singleton_self _))) e3
  have hp : s.g.Pick (s.acts'.getD q []) dflt a (.reduce r) := by
    obtain ⟨dd, ig, hc, hown⟩ := m.own hq
    rcases hown.reduce a (by rintro rfl; exact hkk (m.inv.default_name m.dlt m.didx)) r hL with ⟨h3, _⟩ | ⟨_, h3, _⟩
    · exact .own h3
    · exact m.exact ho hq hkk hL (fun r' e => by cases e; exact m.wild_row hw hq h hc hown h3)
  have := m.tok_lookup hA hq hp h.1 hkk
  rwa [m.code_reduce] at this

theorem Made.look_shift (m : Made s dflt) (ho : OrdOk ord) (hA : apart ord ds = true) (hs : s.g.Settled s.sts) {q k : StateId} {a Y : SymbolId}
    (ha : a < s.g.syms.length) (hk : (s.g.sym a).kind = .terminal) (hr : Reads s.g Y a) (hT : s.g.Trans s.sts q Y k) :
    t.findShift (s.num q) (s.g.sym a).index = .ok (s.num k) :=
  m.look_shift_wins ho hA ha hk hr hT (fun _ h => absurd h (hs.sr (hT.canShift hr)))

theorem Made.look_reduce (m : Made s dflt) (ho : OrdOk ord) (hA : apart ord ds = true) (hs : s.g.Settled s.sts) (hw : s.WildOk) {q : StateId} {a : SymbolId} {r : RuleId}
    (h : s.g.CanReduce s.sts q a r) : t.findShift (s.num q) (s.g.sym a).index = .ok (t.nState + r) :=
  m.look_reduce_wins ho hA hw h (fun _ h' => absurd h (hs.sr h')) (fun _ h' => hs.rr h' h)

theorem Made.pdrive (m : Made s dflt) (ho : OrdOk ord) (hA : apart ord ds = true) (hs : s.g.Settled s.sts) (hw : s.WildOk) {q q' : StateId} {ts : List (GTree V)} {n : Nat}
    {γ : List SymbolId} (h : s.g.Moves s.sts q ts n γ q') : PDrive s q ts n γ q' := by
  induction h with
  | nil => exact .nil
  | leaf h1 h2 h3 h4 h5 h6 _ ih => exact .leaf h1 h2 h3 h4 h5 h6 (by rw [h4]; exact m.look_shift ho hA hs h1 h2 h5 h6) ih
  | node _ h2 h3 h4 _ ih1 ih2 => exact .node ih1 h2 (by rw [← h3]; exact m.look_reduce ho hA hs hw h2) h4 ih2

/-! ## Execution -/

/-- The parser logged a shift or a reduction. -/
def Logs (p p1 : Parser V X) : Prop := ∃ ev, p1.trace = ev :: p.trace ∧ ev.isMove = true

/-- The parser goes from one situation to another without failing; the second components are the
tokens still to come, the first one being in work. -/
inductive Goes (t : Tables) (sem : Sem V X E) : Parser V X → List (Nat × Minor V) → Parser V X → List (Nat × Minor V) → Prop
  | refl {p inp} : Goes t sem p inp p inp
  | again {p p1 p2 n mn inp inp2} : p.status = .normal → p1.status = .normal → step t sem p n mn = .again p1 → Logs p p1 →
      Goes t sem p1 ((n, mn) :: inp) p2 inp2 → Goes t sem p ((n, mn) :: inp) p2 inp2
  | next {p p1 p2 n mn inp inp2} : p.status = .normal → p1.status = .normal → step t sem p n mn = .done (.ok p1 ()) → Logs p p1 →
      Goes t sem p1 inp p2 inp2 → Goes t sem p ((n, mn) :: inp) p2 inp2

theorem Goes.trans {sem : Sem V X E} {p p1 p2 : Parser V X} {inp inp1 inp2 : List (Nat × Minor V)} (h1 : Goes t sem p inp p1 inp1) (h2 : Goes t sem p1 inp1 p2 inp2) :
    Goes t sem p inp p2 inp2 := by
  induction h1 with
  | refl => exact h2
  | again a b c d _ ih => exact .again a b c d (ih h2)
  | next a b c d _ ih => exact .next a b c d (ih h2)

theorem Goes.moves {sem : Sem V X E} {p p1 : Parser V X} {inp inp1 : List (Nat × Minor V)} (h : Goes t sem p inp p1 inp1) (hp : onlyMoves p.trace = true) :
    onlyMoves p1.trace = true := by
  induction h with
  | refl => exact hp
  | again _ _ _ d _ ih =>
    obtain ⟨ev, e1, e2⟩ := d
    exact ih (by rw [e1]; simp only [onlyMoves, List.all_cons, e2, Bool.true_and]; exact hp)
  | next _ _ _ d _ ih =>
    obtain ⟨ev, e1, e2⟩ := d
    exact ih (by rw [e1]; simp only [onlyMoves, List.all_cons, e2, Bool.true_and]; exact hp)

/-- The parser fails with `e`. -/
def Stops (t : Tables) (sem : Sem V X E) (p : Parser V X) (inp : List (Nat × Minor V)) (p2 : Parser V X) (e : E) : Prop :=
  ∃ p1 n mn inp1, Goes t sem p inp p1 ((n, mn) :: inp1) ∧ p1.status = .normal ∧ step t sem p1 n mn = .done (.err p2 e) ∧ ∃ evs, p2.trace = evs ++ p1.trace ∧ noSyntaxError evs = true

theorem Goes.stops {sem : Sem V X E} {p p1 p2 : Parser V X} {inp inp1 : List (Nat × Minor V)} {e : E} (h1 : Goes t sem p inp p1 inp1) (h2 : Stops t sem p1 inp1 p2 e) :
    Stops t sem p inp p2 e := by
  obtain ⟨p3, n, mn, inp3, a, b⟩ := h2
  exact ⟨p3, n, mn, inp3, h1.trans a, b⟩

theorem onlyMoves_noSyntax {l : List (Event V)} (h : onlyMoves l = true) : noSyntaxError l = true := by
  simp only [onlyMoves, noSyntaxError, List.all_eq_true] at h ⊢
  intro ev hev
  have := h ev hev
  cases ev <;> first | rfl | cases this

theorem Stops.noSyntax {sem : Sem V X E} {p p2 : Parser V X} {inp : List (Nat × Minor V)} {e : E} (h : Stops t sem p inp p2 e) (hp : onlyMoves p.trace = true) :
    noSyntaxError p2.trace = true := by
  obtain ⟨p1, n, mn, inp1, h1, _, _, evs, h2, h3⟩ := h
  have := onlyMoves_noSyntax (h1.moves hp)
  rw [h2]
  simp only [noSyntaxError, List.all_append] at h3 this ⊢
  rw [h3, this]; rfl

/-- The parser fails because the stack is full. -/
def Fills (t : Tables) (sem : Sem V X E) (p : Parser V X) (inp : List (Nat × Minor V)) : Prop :=
  ∃ p2 e tok tr, Stops t sem p inp p2 e ∧ p2.trace = .stackOverflow tok :: tr ∧ t.stackLimit ≠ 0

theorem Goes.fills {sem : Sem V X E} {p p1 : Parser V X} {inp inp1 : List (Nat × Minor V)} (h1 : Goes t sem p inp p1 inp1) (h2 : Fills t sem p1 inp1) : Fills t sem p inp := by
  obtain ⟨p2, e, tok, tr, h, h3⟩ := h2
  exact ⟨p2, e, tok, tr, h1.stops h, h3⟩

/-- The tag of a stack entry read as `Y` -/
def CSpec.PTyped (s : CSpec ord ds t) (e : Entry V) (Y : SymbolId) : Prop :=
  ((s.g.sym Y).kind = .nonTerminal ∧ e.minor.tag = s.tag Y) ∨
  ∃ a, a < s.g.syms.length ∧ (s.g.sym a).kind = .terminal ∧ Reads s.g Y a ∧ e.minor.tag = s.tag a

/-- The tag of an aliased class is that of the wildcard if it is a member and there is no default type. -/
theorem Made.class_tag_wild (m : Made s dflt) (hfl : s.g.Flat) (b : Bridge ord ds s.g) {r : RuleId} (hr : r < s.g.rules.length) {x : RhsSym} (hx : x ∈ (s.g.rule r).rhs)
    (ha : x.alias = true) (hk : (s.g.sym x.sym).kind = .multiTerminal) {c : SymbolId} (hc : c ∈ (s.g.sym x.sym).subs) (hw : s.g.wildcard = some c)
    (hd : s.g.defaultType = none) : s.tag c = s.tag x.sym := by
  obtain ⟨rc, _, htc⟩ := s.ruleCode_get hr
  have hsh := s.gen.shape
  have hcore := hsh.core x.sym
  simp only [Symbol.core, Prod.mk.injEq] at hcore
  have hxr : x.sym ∈ s.g.rhsSyms r := List.mem_map.2 ⟨x, hx, rfl⟩
  have hxl := (m.inv.rhs r hr _ hxr).1
  have hw2 : s.g.wildcard ≠ some x.sym := by rw [← hsh.wild]; exact translateCode_wild htc hx ha
  have hcl' := (m.inv.subs _ hxl c hc).1
  have hcD : c < b.gD.syms.length := (b.dinv.wild c (by rw [← b.wildcard]; exact hw)).1
  obtain ⟨t1, t2⟩ := b.toBridge0.wildTag m.inv s.gen.assign hcD hw
  cases hs : (s.g.sym x.sym).subs with
  | nil => rw [hs] at hc; cases hc
  | cons f l =>
    have hft := hfl r hr _ hxr f (by rw [hs]; exact List.mem_cons_self)
    by_cases hcl : c ∈ l
    · exact translateCode_class htc hx ha (by rw [hcore.2.2.1]; exact hk) (by rw [hcore.2.2.2.2.1, hs]; exact hcl)
    · obtain rfl : c = f := by
        rw [hs] at hc
        rcases List.mem_cons.1 hc with h | h
        · exact h
        · exact absurd h hcl
      obtain ⟨h1, h2, _⟩ := s.gen.classType m.inv hxl hk hw2 (by rw [hs]; rfl) hft
      unfold CSpec.tag
      rw [h2, h1, t1, t2, s.gen.wildT c hw, hd]
      rfl

theorem Made.own_typed (m : Made s dflt) (ho : OrdOk ord) (hf : flat ds = true) (b : Bridge ord ds s.g) (hw : s.AliasW) {r : RuleId} (hr : r < s.g.rules.length)
    (hused : (s.g.rule r).lhs = s.g.start.getD 0 ∨ ∃ r', r' < s.g.rules.length ∧ (s.g.rule r).lhs ∈ s.g.rhsSyms r') {x : RhsSym} (hx : x ∈ (s.g.rule r).rhs) (ha : x.alias = true) {e : Entry V} (h : s.PTyped e x.sym) : e.minor.tag = s.tag x.sym := by
  rcases h with ⟨_, h⟩ | ⟨a, _, h2, h3, h4⟩
  · exact h
  · rw [h4]
    have hw' := hw r hr hused x hx ha a h3
    unfold Reads at h3
    split at h3
    · rw [h3]
    · rename_i hk
      by_cases hwa : s.g.wildcard = some a
      · exact m.class_tag_wild (b.flat ho hf) b hr hx ha hk h3 hwa (hw'.resolve_left (fun h => h hwa))
      · exact m.class_tag (b.flat ho hf) hr hx ha hk h3 hwa
    · cases h3

theorem Made.tokenTag (m : Made s dflt) (sem : Sem V X E) {tok : Tok V} {a : SymbolId} (ha : a < s.g.syms.length) (hk : (s.g.sym a).kind = .terminal)
    (h : tok.major = (s.g.sym a).index) : (t.tokenValue sem tok).2.tag = s.tag a := by
  have := m.token_tag ha hk
  rw [← h] at this
  exact this

theorem pend_head {sem : Sem V X E} (ts : List (GTree V)) {n : Nat} {mn : Minor V} {inp : List (Nat × Minor V)} :
    ∃ mn' inp', (GTree.yields ts).map (t.tokenValue sem) ++ (n, mn) :: inp = (nextOf ts n, mn') :: inp' := by
  unfold nextOf
  cases GTree.yields ts with
  | nil => exact ⟨mn, inp, rfl⟩
  | cons k ks => exact ⟨(t.tokenValue sem k).2, _, rfl⟩

/-- Reading one token -/
theorem Made.read_leaf (m : Made s dflt) (sem : Sem V X E) {p : Parser V X} (hst : p.status = .normal) {δ : List SymbolId} {q k : StateId} (hs : Stk s p.stack δ q)
    {tok : Tok V} {a Y : SymbolId} (ha : a < s.g.syms.length) (hk : (s.g.sym a).kind = .terminal) (h0 : a ≠ 0) (hm : tok.major = (s.g.sym a).index)
    (hr : Reads s.g Y a) (hT : s.g.Trans s.sts q Y k) (hl : t.findShift (s.num q) tok.major = .ok (s.num k)) (mn : Minor V) :
    (∃ p1, step t sem p tok.major mn = .done (.ok p1 ()) ∧ p1.status = .normal ∧ p1.extra = p.extra ∧ p1.stack = ⟨s.num k, tok.major, mn⟩ :: p.stack ∧
      Stk s p1.stack (δ ++ [Y]) k ∧ Logs p p1 ∧ (t.stackLimit = 0 ∨ p.stack.length < t.stackLimit)) ∨
    (∃ p2 e, step t sem p tok.major mn = .done (.err p2 e) ∧ (∃ tok, p2.trace = .stackOverflow tok :: p.trace) ∧ t.stackLimit ≠ 0 ∧ t.stackLimit ≤ p.stack.length) := by
  have hlt := m.num_lt hT.dst
  have hm0 : tok.major ≠ 0 := by
    rw [hm]; intro e
    exact h0 (m.inv.index_inj ha (Nat.lt_of_lt_of_le Nat.zero_lt_two m.inv.two) (by rw [e, m.inv.dollar.2.2]))
  obtain ⟨top, rest, hd⟩ : ∃ top rest, p.stack = top :: rest := by
    cases hd : p.stack with
    | nil => have := hs.length; rw [hd] at this; simp at this
    | cons a b => exact ⟨a, b, rfl⟩
  have htop := hs
  rw [hd] at htop
  have htop := htop.top m
  rcases shift_cases t sem p (s.num k) tok.major mn with ⟨h1, hfull, hsh⟩ | ⟨hroom, hsh⟩
  · right
    have hstep : step t sem p tok.major mn = .done (shift t sem p (s.num k) tok.major mn) := by
      unfold step
      rw [hd]
      simp only [htop, hl, hlt, if_true, hm0, if_false, hsh]
    rw [hsh] at hstep
    exact ⟨_, _, hstep, ⟨_, rfl⟩, h1, hfull⟩
  · left
    have hstep : step t sem p tok.major mn = .done (.ok { p with stack := ⟨s.num k, tok.major, mn⟩ :: p.stack, errorCount := p.errorCount - 1, trace := .shift tok.major :: p.trace } ()) := by
      unfold step
      rw [hd]
      simp only [htop, hl, hlt, if_true, hm0, if_false, hsh]
      rw [hd]
    exact ⟨_, hstep, hst, rfl, rfl, .push hs hT rfl (.inr ⟨a, a, ha, hk, h0, hm, .self, hr⟩), ⟨_, rfl, rfl⟩, hroom⟩

/-- Reducing by a rule whose right-hand side is on top of the stack -/
theorem Made.read_node (m : Made s dflt) (ho : OrdOk ord) (hf : flat ds = true) (b : Bridge ord ds s.g) (hw : s.AliasW) (sem : Sem V X E)
    {p : Parser V X} {δ : List SymbolId} {q q1 : StateId} {r : RuleId}
    {es st : List (Entry V)} (hpe : p.stack = es ++ st) (hs0 : Stk s st δ q) (hs : Stk s p.stack (δ ++ s.g.rhsSyms r) q1)
    (hty : List.Forall₂ s.PTyped es.reverse (s.g.rhsSyms r)) {c : SymbolId} (hr : s.g.CanReduce s.sts q1 c r) :
    reduce t sem p r = (match runCode sem (t.ruleCode.getD r default).code (pickArgs (t.ruleCode.getD r default).pats (es.reverse.map (·.minor.val))) p.extra with
      | (.error e, x) => .err { p with stack := st, extra := x, trace := .reduce r (pickArgs (t.ruleCode.getD r default).pats (es.reverse.map (·.minor.val))) :: p.trace } e
      | (.ok v, x) =>
        if (s.g.rule r).lhs = s.g.start.getD 0 then
          accept t sem { p with stack := st, extra := x, trace := .reduce r (pickArgs (t.ruleCode.getD r default).pats (es.reverse.map (·.minor.val))) :: p.trace } ⟨s.tag (s.g.rule r).lhs, v⟩
        else
          match t.findReduce (s.num q) (s.g.sym (s.g.rule r).lhs).index with
          | .ok k => shift t sem { p with stack := st, extra := x, trace := .reduce r (pickArgs (t.ruleCode.getD r default).pats (es.reverse.map (·.minor.val))) :: p.trace } k
              (s.g.sym (s.g.rule r).lhs).index ⟨s.tag (s.g.rule r).lhs, v⟩
          | .error w => .panic w) := by
  have hrl := (canReduce_rule m.inv m.auto hr).1
  have hit := (canReduce_rule m.inv m.auto hr).2.2
  have hused : (s.g.rule r).lhs = s.g.start.getD 0 ∨ ∃ r', r' < s.g.rules.length ∧ (s.g.rule r).lhs ∈ s.g.rhsSyms r' := by
    obtain ⟨_, _, _, _, hgo⟩ := m.complete hs hit
    rcases hgo with ⟨_, _, h⟩ | ⟨k, h⟩
    · exact .inl h
    · exact .inr (h.rhs m.inv m.auto)
  have hlen : es.length = (s.g.rhsSyms r).length := by rw [← hty.length_eq, List.length_reverse]
  obtain ⟨rc, hrc, htc, hpl, hcase⟩ := m.reduce_stk sem hs hit
  have hgd : t.ruleCode.getD r default = rc := by rw [List.getD_eq_getElem?_getD, hrc]; rfl
  have htake : p.stack.take rc.pats.length = es := by rw [hpe, hpl, ← hlen]; simp
  have hdrop : p.stack.drop rc.pats.length = st := by rw [hpe, hpl, ← hlen]; simp
  rw [htake, hdrop] at hcase
  have hpats := translateCode_pats htc
  have htag : rc.lhsDt = s.tag (s.g.rule r).lhs := by rw [hpats]; rfl
  rw [hgd]
  rcases hcase with ⟨hno, _⟩ | ⟨vs, hvs, hcase⟩
  · exfalso
    obtain ⟨vs, hvs⟩ := matchPats_typed (gT := s.gen.gT) (rhs := (s.g.rule r).rhs) (es := es.reverse) (P := s.PTyped) hty (by
      intro x hx ha e he
      exact m.own_typed ho hf b hw hrl hused hx ha he)
    have : rc.pats = (s.g.rule r).rhs.map (fun y => if y.alias then some (s.gen.gT.sym y.sym).dtNum else none) := by rw [hpats]
    rw [← this] at hvs
    rw [hvs] at hno; cases hno
  · have hv := matchPats_pick hvs
    subst hv
    rcases hcase with ⟨e, x, e1, e2⟩ | ⟨v, x, γ0, q0, e1, e2, e3, e4⟩
    · rw [e1, e2]
    · rw [e1]
      have hγ : δ = γ0 := (List.append_inj' e2 rfl).1
      subst hγ
      have hq : q = q0 := Path.unique m.auto hs0.path e3.path
      subst hq
      simp only
      rcases e4 with ⟨_, _, h3, h4⟩ | ⟨k, h3, h4⟩
      · rw [if_pos h3, h4, htag]
      · have hne : (s.g.rule r).lhs ≠ s.g.start.getD 0 := by
          intro he
          obtain ⟨r', hr', hx⟩ := h3.rhs m.inv m.auto
          obtain ⟨s', hs1, _⟩ := m.inv.start
          exact m.noStart r' hr' _ hx (by rw [he, hs1]; rfl)
        rw [if_neg hne, m.goto_shift (m.inv.lhs r hrl).2.1 h3, h4, htag]

theorem Room.cons {h : Nat} (T : GTree V) (ts : List (GTree V)) (h1 : t.stackLimit = 0 ∨ h + T.need ≤ t.stackLimit) (h2 : Room t (h + 1) (GTree.needs ts)) :
    Room t h (GTree.needs (T :: ts)) := by
  have := T.need_pos
  unfold Room at *
  simp only [GTree.needs]
  omega

theorem Room.tail {h : Nat} {T : GTree V} {ts : List (GTree V)} (h1 : Room t h (GTree.needs (T :: ts))) : Room t (h + 1) (GTree.needs ts) := by
  have := T.need_pos
  unfold Room at *
  simp only [GTree.needs] at h1
  omega

theorem Room.head {h : Nat} {T : GTree V} {ts : List (GTree V)} (h1 : Room t h (GTree.needs (T :: ts))) : Room t h T.need := by
  have := T.need_pos
  unfold Room at *
  simp only [GTree.needs] at h1
  omega

theorem Room.kids {h : Nat} {r : RuleId} {ts : List (GTree V)} (h1 : Room t h (GTree.node r ts).need) : Room t h (GTree.needs ts) := by
  unfold Room at *
  simp only [GTree.need] at h1
  omega

theorem Room.node {h : Nat} (r : RuleId) {ts : List (GTree V)} (h1 : t.stackLimit = 0 ∨ h < t.stackLimit) (h2 : Room t h (GTree.needs ts)) :
    t.stackLimit = 0 ∨ h + (GTree.node r ts).need ≤ t.stackLimit := by
  unfold Room at *
  simp only [GTree.need]
  omega

theorem not_room_one {h : Nat} {T : GTree V} (h1 : t.stackLimit ≠ 0) (h2 : t.stackLimit ≤ h) : ¬ Room t h T.need := by
  have := T.need_pos
  unfold Room
  omega

/-- The parser follows a drive: it builds the values of the trees, or fails with the error of the user's code, or its stack overflows.
In the first case the stack had room for the trees, in the last it had not. -/
theorem Made.follow (m : Made s dflt) (ho : OrdOk ord) (hf : flat ds = true) (b : Bridge ord ds s.g) (hw : s.AliasW) (sem : Sem V X E)
    {q q' : StateId} {ts : List (GTree V)} {n : Nat} {γ : List SymbolId} (h : PDrive s q ts n γ q') :
    (∀ tok ∈ GTree.yields ts, tok.Valid t sem) → ∀ {p : Parser V X} {δ : List SymbolId} {mn : Minor V} {inp : List (Nat × Minor V)},
    p.status = .normal → Stk s p.stack δ q →
    (∃ vs p' es, GTree.evals t sem ts p.extra = (.ok vs, p'.extra) ∧ Goes t sem p ((GTree.yields ts).map (t.tokenValue sem) ++ (n, mn) :: inp) p' ((n, mn) :: inp) ∧
      p'.status = .normal ∧ p'.stack = es ++ p.stack ∧ es.reverse.map (·.minor.val) = vs ∧ Stk s p'.stack (δ ++ γ) q' ∧ List.Forall₂ s.PTyped es.reverse γ ∧ Room t p.stack.length (GTree.needs ts)) ∨
    (∃ e p2, GTree.evals t sem ts p.extra = (.error e, p2.extra) ∧ Stops t sem p ((GTree.yields ts).map (t.tokenValue sem) ++ (n, mn) :: inp) p2 e ∧
      (onlyMoves p.trace = true → onlyMoves p2.trace = true)) ∨
    (Fills t sem p ((GTree.yields ts).map (t.tokenValue sem) ++ (n, mn) :: inp) ∧ ¬ Room t p.stack.length (GTree.needs ts)) := by
  induction h with
  | nil =>
    intro _ p δ mn inp hst hs
    exact .inl ⟨[], p, [], rfl, .refl, hst, rfl, rfl, by simpa using hs, .nil, .inr (.inl rfl)⟩
  | @leaf q tok ts n γ a Y k q' h1 h2 h3 h4 h5 h6 h7 _ ih =>
    intro hv p δ mn inp hst hs
    have hvt : tok.Valid t sem := hv tok (by simp [GTree.yields, GTree.yield])
    have hvs : ∀ tok ∈ GTree.yields ts, tok.Valid t sem := fun x hx => hv x (by simp only [GTree.yields, List.mem_append]; exact .inr hx)
    have hpend : ∀ rest, (GTree.yields (.leaf tok :: ts)).map (t.tokenValue sem) ++ rest = (tok.major, (t.tokenValue sem tok).2) :: ((GTree.yields ts).map (t.tokenValue sem) ++ rest) := by
      intro rest; simp only [GTree.yields, GTree.yield, List.cons_append, List.nil_append, List.map_cons]; rfl
    rw [hpend]
    rcases m.read_leaf sem hst hs h1 h2 h3 h4 h5 h6 h7 (t.tokenValue sem tok).2 with ⟨p1, s1, s2, s3, s4, s5, s6, s7⟩ | ⟨p2, e, s1, ⟨tk, s2⟩, s3, s4⟩
    · have hgo : ∀ rest, Goes t sem p ((tok.major, (t.tokenValue sem tok).2) :: rest) p1 rest := fun rest => .next hst s2 s1 s6 .refl
      rcases ih hvs (mn := mn) (inp := inp) s2 s5 with ⟨vs, p', es, a1, a2, a3, a4, a5, a6, a7, a8⟩ | ⟨e, p2, a1, a2, a9⟩ | ⟨a1, a8⟩
      · refine .inl ⟨tok.val :: vs, p', es ++ [⟨s.num k, tok.major, (t.tokenValue sem tok).2⟩], ?_, (hgo _).trans a2, a3, ?_, ?_, ?_, ?_, ?_⟩
        · simp only [GTree.evals, GTree.eval]
          rw [← s3, a1]
        · rw [a4, s4]; simp
        · simp only [List.reverse_append, List.reverse_cons, List.reverse_nil, List.nil_append, List.cons_append, List.map_cons, a5]
          rw [(tokenValue_val hvt).2]
        · simpa using a6
        · simp only [List.reverse_append, List.reverse_cons, List.reverse_nil, List.nil_append, List.cons_append]
          exact .cons (.inr ⟨a, h1, h2, h5, m.tokenTag sem h1 h2 h4⟩) a7
        · rw [s4, List.length_cons] at a8
          exact Room.cons (.leaf tok) ts (by rw [GTree.need]; exact s7) a8
      · refine .inr (.inl ⟨e, p2, ?_, (hgo _).stops a2, fun h => a9 ((hgo []).moves h)⟩)
        simp only [GTree.evals, GTree.eval]
        rw [← s3, a1]
      · rw [s4, List.length_cons] at a8
        exact .inr (.inr ⟨(hgo _).fills a1, fun h => a8 h.tail⟩)
    · exact .inr (.inr ⟨⟨p2, e, tk, _, ⟨p, _, _, _, .refl, hst, s1, [_], s2, rfl⟩, s2, s3⟩, fun h => not_room_one s3 s4 h.head⟩)
  | @node q r kids ts n γ q1 c k q' hk h2 h3 h4 _ ih1 ih2 =>
    intro hv p δ mn inp hst hs
    have hvk : ∀ tok ∈ GTree.yields kids, tok.Valid t sem := fun x hx => hv x (by simp only [GTree.yields, GTree.yield, List.mem_append]; exact .inl hx)
    have hvs : ∀ tok ∈ GTree.yields ts, tok.Valid t sem := fun x hx => hv x (by simp only [GTree.yields, List.mem_append]; exact .inr hx)
    have hpend : (GTree.yields (.node r kids :: ts)).map (t.tokenValue sem) ++ (n, mn) :: inp =
        (GTree.yields kids).map (t.tokenValue sem) ++ ((GTree.yields ts).map (t.tokenValue sem) ++ (n, mn) :: inp) := by
      simp only [GTree.yields, GTree.yield, List.map_append, List.append_assoc]
    rw [hpend]
    obtain ⟨mn1, inp1, hh⟩ := pend_head (t := t) (sem := sem) ts (n := n) (mn := mn) (inp := inp)
    have hrl := (canReduce_rule m.inv m.auto h2).1
    have hlhs := (m.inv.lhs r hrl).2.1
    have hne : (s.g.rule r).lhs ≠ s.g.start.getD 0 := by
      intro he
      obtain ⟨r', hr', hx⟩ := h4.rhs m.inv m.auto
      obtain ⟨s', hs1, _⟩ := m.inv.start
      exact m.noStart r' hr' _ hx (by rw [he, hs1]; rfl)
    rw [hh]
    rcases ih1 hvk (mn := mn1) (inp := inp1) hst hs with ⟨ws, p1, es, a1, a2, a3, a4, a5, a6, a7, a8⟩ | ⟨e, p2, a1, a2, a9⟩ | ⟨a1, a8⟩
    · -- the kids are on the stack
      have hred := m.read_node ho hf b hw sem a4 hs a6 a7 h2
      rw [a5] at hred
      have hstep : step t sem p1 (nextOf ts n) mn1 = (match reduce t sem p1 r with
          | .panic w => .done (.panic w)
          | .err p e => .done (.err p e)
          | .ok p () => .again p) := by
        obtain ⟨top, rest, hd⟩ : ∃ top rest, p1.stack = top :: rest := by
          cases hd : p1.stack with
          | nil => have := a6.length; rw [hd] at this; simp at this
          | cons a b => exact ⟨a, b, rfl⟩
        have htop := a6
        rw [hd] at htop
        have htop := htop.top m
        have hn : t.nRule = s.g.rules.length := m.tab.nRule
        unfold step
        rw [hd]
        simp only [htop, h3]
        rw [if_neg (by exact Nat.not_lt.2 (Nat.le_add_right _ _)), if_pos (by rw [hn]; exact Nat.add_lt_add_left hrl _), Nat.add_sub_cancel_left]
        cases reduce t sem p1 r <;> rfl
      rcases hc : runCode sem (t.ruleCode.getD r default).code (pickArgs (t.ruleCode.getD r default).pats ws) p1.extra with ⟨e | v, x⟩
      · -- the code fails
        rw [hc] at hred
        simp only at hred
        rw [hred] at hstep
        right; left
        refine ⟨e, _, ?_, a2.stops ⟨p1, _, _, _, .refl, a3, hstep, [_], rfl, rfl⟩, fun h => ?_⟩
        rotate_left
        · have := a2.moves h
          simp only [onlyMoves, List.all_cons] at this ⊢
          rw [this]; rfl
        simp only [GTree.evals, GTree.eval, a1, hc]
      · rw [hc] at hred
        simp only [if_neg hne, m.goto_shift hlhs h4] at hred
        rcases shift_cases t sem { p1 with stack := p.stack, extra := x, trace := .reduce r (pickArgs (t.ruleCode.getD r default).pats ws) :: p1.trace } (s.num k)
            (s.g.sym (s.g.rule r).lhs).index ⟨s.tag (s.g.rule r).lhs, v⟩ with ⟨f1, f2, hsh⟩ | ⟨f2, hsh⟩
        · rw [hsh] at hred
          rw [hred] at hstep
          simp only at hstep
          exact .inr (.inr ⟨⟨_, _, _, _, a2.stops ⟨p1, _, _, _, .refl, a3, hstep, [_, _], rfl, rfl⟩, rfl, f1⟩, fun h => not_room_one f1 f2 h.head⟩)
        · rw [hsh] at hred
          rw [hred] at hstep
          simp only at hstep
          have hs2 : Stk s (⟨s.num k, (s.g.sym (s.g.rule r).lhs).index, ⟨s.tag (s.g.rule r).lhs, v⟩⟩ :: p.stack) (δ ++ [(s.g.rule r).lhs]) k :=
            .push hs h4 rfl (.inl ⟨hlhs, rfl⟩)
          have hgo : ∀ p2 : Parser V X, p2 = ({ p1 with stack := ⟨s.num k, (s.g.sym (s.g.rule r).lhs).index, ⟨s.tag (s.g.rule r).lhs, v⟩⟩ :: p.stack, extra := x, trace := .reduce r (pickArgs (t.ruleCode.getD r default).pats ws) :: p1.trace } : Parser V X) →
              Goes t sem p ((GTree.yields kids).map (t.tokenValue sem) ++ (nextOf ts n, mn1) :: inp1) p2 ((GTree.yields ts).map (t.tokenValue sem) ++ (n, mn) :: inp) := by
            rintro p2 rfl
            rw [hh]
            exact a2.trans (.again a3 (by exact a3) hstep ⟨_, rfl, rfl⟩ .refl)
          obtain ⟨p2, hp2⟩ : ∃ p2 : Parser V X, p2 = ({ p1 with stack := ⟨s.num k, (s.g.sym (s.g.rule r).lhs).index, ⟨s.tag (s.g.rule r).lhs, v⟩⟩ :: p.stack, extra := x, trace := .reduce r (pickArgs (t.ruleCode.getD r default).pats ws) :: p1.trace } : Parser V X) := ⟨_, rfl⟩
          have hgo := hgo p2 hp2
          have e1 : p2.status = .normal := by rw [hp2]; exact a3
          have e2 : p2.stack = ⟨s.num k, (s.g.sym (s.g.rule r).lhs).index, ⟨s.tag (s.g.rule r).lhs, v⟩⟩ :: p.stack := by rw [hp2]
          have e3 : p2.extra = x := by rw [hp2]
          rw [← e2] at hs2
          rcases ih2 hvs (mn := mn) (inp := inp) e1 hs2 with ⟨vs, p', es', b1, b2, b3, b4, b5, b6, b7, b8⟩ | ⟨e, p3, b1, b2, b9⟩ | ⟨b1, b8⟩
          · refine .inl ⟨v :: vs, p', es' ++ [⟨s.num k, (s.g.sym (s.g.rule r).lhs).index, ⟨s.tag (s.g.rule r).lhs, v⟩⟩], ?_, hgo.trans b2, b3, ?_, ?_, ?_, ?_, ?_⟩
            · simp only [GTree.evals, GTree.eval, a1, hc]
              rw [← e3, b1]
            · rw [b4, e2]; simp
            · simp only [List.reverse_append, List.reverse_cons, List.reverse_nil, List.nil_append, List.cons_append, List.map_cons, b5]
            · simpa using b6
            · simp only [List.reverse_append, List.reverse_cons, List.reverse_nil, List.nil_append, List.cons_append]
              exact .cons (.inl ⟨hlhs, rfl⟩) b7
            · rw [e2, List.length_cons] at b8
              exact Room.cons (.node r kids) ts (Room.node r f2 a8) b8
          · refine .inr (.inl ⟨e, p3, ?_, hgo.stops b2, fun h => b9 (hgo.moves h)⟩)
            simp only [GTree.evals, GTree.eval, a1, hc]
            rw [← e3, b1]
          · rw [e2, List.length_cons] at b8
            exact .inr (.inr ⟨hgo.fills b1, fun h => b8 h.tail⟩)
    · refine .inr (.inl ⟨e, p2, ?_, a2, a9⟩)
      simp only [GTree.evals, GTree.eval, a1]
    · exact .inr (.inr ⟨a1, fun h => a8 (h.head.kids)⟩)

end

end Pomelo
