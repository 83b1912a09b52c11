import Verif.Spec.Expected
import Verif.Proofs.Rows
import Verif.Proofs.Parse
import Verif.Proofs.Forms
import Verif.Proofs.Fallback
import Verif.Proofs.Report
/-! # The tokens reported as expected -/

namespace Pomelo

open Spec

variable {V X E : Type}

theorem noNonassoc_prec {ds : List Decl} (h : noNonassoc ds = true) {i : Ident} {p : Precedence} (hp : precOf ds i = some p) : p.assoc ≠ .none := by
  unfold precOf at hp
  generalize 0 = n at hp
  unfold noNonassoc at h
  induction ds generalizing n with
  | nil => cases hp
  | cons d ds ih =>
    rw [List.all_cons, Bool.and_eq_true] at h
    cases d with
    | assoc a ids =>
      unfold precFrom at hp
      split at hp
      · cases hp
        cases a <;> simp at h ⊢
      · exact ih h.2 _ hp
    | _ => exact ih h.2 _ hp

section
variable {ord : List (SymbolId × SymbolId) → List (SymbolId × SymbolId)} {ds : List Decl} {t : Tables} {s : CSpec ord ds t} {dflt : SymbolId}

/-- Without `%nonassoc` no token is excluded. -/
theorem Made.no_eq (m : Made s dflt) (b : Bridge ord ds s.g) (hn : noNonassoc ds = true) {a : SymbolId} (ha : a < s.g.syms.length)
    (hk : (s.g.sym a).kind ≠ .nonTerminal) (r : RuleId) : ¬ s.g.TokVs a r .eq := by
  rintro ⟨p, q, h1, _, h3⟩
  have haD : a < b.gD.syms.length := b.dropped m.inv ha (by
    intro e
    obtain ⟨d, d1, d2, d3⟩ := m.inv.dflt
    have : a = d := m.inv.names a d ha d1 (by rw [e, d2]) (by rw [e]; simp)
    subst this
    exact hk (m.inv.default_name ha d3))
  rw [b.precedence haD] at h1
  cases hi : (b.gD.sym a).name.isIdent with
  | false => rw [(b.plainAnon a haD hi).1] at h1; cases h1
  | true =>
    cases hm : (b.gD.sym a).name with
    | ident i =>
      have h2 := (b.decl.sym b.dinv haD hm).1
      rw [h1] at h2
      have h4 := noNonassoc_prec hn h2.symm
      unfold precedenceCmp at h3
      split at h3
      · cases h3
      · split at h3
        · cases h3
        · split at h3
          · cases h3
          · cases h3
          · rename_i h5; exact h4 h5
    | _ => rw [hm] at hi; cases hi

/-- A token with actions in a state either has one shift left, or one reduction. -/
theorem Made.live (m : Made s dflt) (b : Bridge ord ds s.g) (hn : noNonassoc ds = true) {q : StateId} (hq : q < s.sts.length) {a : SymbolId}
    (ha : a < s.g.syms.length) (hk : (s.g.sym a).kind ≠ .nonTerminal) :
    lives (onSym a (s.acts.getD q [])) = [] ∧ (∀ x ∈ s.acts.getD q [], x.la ≠ a) ∨
    (∃ k, lives (onSym a (s.acts.getD q [])) = [.shift k] ∧ s.g.CanShift s.sts q a k) ∨
    (∃ r, lives (onSym a (s.acts.getD q [])) = [.reduce r] ∧ s.g.CanReduce s.sts q a r) := by
  obtain ⟨sh, rd, h1, h2, hout⟩ := m.outcome hq hk
  generalize hl : lives (onSym a (s.acts.getD q [])) = L at hout
  cases hout with
  | nothing e1 e2 =>
    left
    refine ⟨rfl, ?_⟩
    rintro x hx rfl
    rcases m.aspec.las q hq x hx with ⟨k, hk'⟩ | ⟨r, hr⟩ | ⟨_, h⟩
    · have := (h1 k).2 hk'; rw [e1] at this; cases this
    · have := (h2 r).2 hr; rw [e2] at this; cases this
    · rw [h] at hk; exact hk m.inv.start_kind.1
  | @shift k e1 e2 => right; left; exact ⟨k, rfl, (h1 k).1 (by rw [e1]; simp)⟩
  | @reduce r e1 => right; right; exact ⟨r, rfl, (h2 r).1 e1⟩
  | @error k r c _ _ _ e4 => exact absurd e4 (m.no_eq b hn ha hk c)

theorem Made.own_live (m : Made s dflt) (b : Bridge ord ds s.g) (hn : noNonassoc ds = true) {q : StateId} (hq : q < s.sts.length) {a : SymbolId}
    (ha : a < s.g.syms.length) (hk : (s.g.sym a).kind ≠ .nonTerminal) {d : Detail} (h : ownOf (s.acts'.getD q []) a = some d) :
    (∃ k, d = .shift k ∧ s.g.CanShift s.sts q a k) ∨ ∃ r, d = .reduce r ∧ lives (onSym a (s.acts.getD q [])) = [.reduce r] := by
  obtain ⟨dd, ig, _, ho⟩ := m.own hq
  have hne : a ≠ dflt := by rintro rfl; exact hk (m.inv.default_name m.dlt m.didx)
  rcases m.live b hn hq ha hk with ⟨hl, _⟩ | ⟨k, hl, hs⟩ | ⟨r, hl, _⟩
  · rw [ho.nothing a hne hl] at h; cases h
  · rw [ho.shift a hne k hl] at h; cases h; exact .inl ⟨k, rfl, hs⟩
  · rcases ho.reduce a hne r hl with ⟨h', _⟩ | ⟨h', _⟩
    · rw [h'] at h; cases h; exact .inr ⟨r, rfl, hl⟩
    · rw [h'] at h; cases h

/-- A reduction in a state without a default: some token that this one may stand for can be shifted. -/
theorem Made.chain (m : Made s dflt) (ho' : OrdOk ord) (b : Bridge ord ds s.g) (hn : noNonassoc ds = true) {q : StateId} (hq : q < s.sts.length) {ig : List SymbolId}
    (hig : s.g.ignoredActions (s.acts.getD q []) = .ok ig)
    (hno : ∀ a ∈ s.acts.getD q [], a.la ∉ ig → ∀ r, a.detail = .reduce r → (s.g.rule r).lhsStart = true) :
    ∀ {a : SymbolId}, Ends (fun s' => (s.g.sym s').fallback) a → a < s.g.syms.length → (s.g.sym a).kind ≠ .nonTerminal → a ≠ 0 → ∀ {r},
      lives (onSym a (s.acts.getD q [])) = [.reduce r] → ∃ f k, (s.g.sym a).fallback ≠ none ∧ Stands s.g a f ∧ s.g.CanShift s.sts q f k := by
  have hz : (0 : SymbolId) < s.g.syms.length := Nat.lt_of_lt_of_le Nat.zero_lt_two m.inv.two
  have ignored : ∀ {a : SymbolId}, a < s.g.syms.length → (s.g.sym a).kind ≠ .nonTerminal → a ≠ 0 → ∀ {r},
      lives (onSym a (s.acts.getD q [])) = [.reduce r] → ∃ d fuel, s.g.fallbackDiffers (s.acts.getD q []) d fuel a = .ok true := by
    intro a ha hk h0 r hl
    by_cases hm : a ∈ ig
    · unfold Grammar.ignoredActions at hig
      split at hig
      · cases hr : (s.acts.getD q []).filterM (fun a => s.g.fallbackDiffers (s.acts.getD q []) a.detail (s.g.syms.length + 1) a.la) with
        | error e => rw [hr] at hig; cases hig
        | ok l2 =>
          rw [hr] at hig
          simp only [Except.map, Except.ok.injEq] at hig
          subst hig
          obtain ⟨x, hx, rfl⟩ := List.mem_map.1 hm
          exact ⟨_, _, mem_filterM_true hr x hx⟩
      · cases hig; cases hm
    · exfalso
      have h1 := hno ⟨a, .reduce r⟩ (mem_of_lives (by rw [hl]; simp)) hm r rfl
      rcases m.live b hn hq ha hk with ⟨h2, _⟩ | ⟨k, h2, _⟩ | ⟨r', h2, h3⟩
      · rw [hl] at h2; cases h2
      · rw [hl] at h2; cases h2
      · rw [hl] at h2
        cases h2
        exact h0 (canReduce_start m.inv m.auto m.noStart h3 (start_of_lhsStart ho' s.decls s.auto h1))
  have main : ∀ {a : SymbolId}, Ends (fun s' => (s.g.sym s').fallback) a → a < s.g.syms.length → ∀ {d fuel},
      s.g.fallbackDiffers (s.acts.getD q []) d fuel a = .ok true → ∃ f k, (s.g.sym a).fallback ≠ none ∧ Stands s.g a f ∧ s.g.CanShift s.sts q f k := by
    intro a he
    induction he with
    | @stop a h =>
      intro _ d fuel hd
      cases fuel with
      | zero => cases hd
      | succ fuel =>
        unfold Grammar.fallbackDiffers at hd
        rw [h] at hd; cases hd
    | @next a f h _ ih =>
      intro ha d fuel hd
      obtain ⟨hfl, hfn, _⟩ := m.inv.fb _ ha _ h
      have hfk : (s.g.sym f).kind ≠ .nonTerminal := by
        intro he; rcases m.inv.isTok_kind hfl hfn with h' | h' <;> rw [he] at h' <;> cases h'
      have hf0 : f ≠ 0 := by
        rintro rfl
        rw [m.inv.dollar.1] at hfn; cases hfn
      have up : (∃ f' k, (s.g.sym f).fallback ≠ none ∧ Stands s.g f f' ∧ s.g.CanShift s.sts q f' k) →
          ∃ f' k, (s.g.sym a).fallback ≠ none ∧ Stands s.g a f' ∧ s.g.CanShift s.sts q f' k := by
        rintro ⟨f', k, _, h1, h2⟩
        exact ⟨f', k, by rw [h]; simp, .fallback h h1, h2⟩
      cases fuel with
      | zero => cases hd
      | succ fuel =>
        unfold Grammar.fallbackDiffers at hd
        rw [h] at hd
        simp only at hd
        split at hd
        · rename_i a2 ha2
          have hm2 := List.mem_of_find?_eq_some ha2
          have hla2 := List.find?_some ha2
          rcases m.live b hn hq hfl hfk with ⟨_, h2⟩ | ⟨k, _, h2⟩ | ⟨r, h2, _⟩
          · exact absurd (by simpa using hla2) (h2 a2 hm2)
          · exact ⟨f, k, by rw [h]; simp, .fallback h .self, h2⟩
          · obtain ⟨d', fuel', h3⟩ := ignored hfl hfk hf0 h2
            exact up (ih hfl h3)
        · exact up (ih hfl hd)
  intro a he ha hk h0 r hl
  obtain ⟨d, fuel, hd⟩ := ignored ha hk h0 hl
  exact main he ha hd

/-- Where one token is an error, every token with an action may stand for one that can be shifted. -/
theorem Made.expected_shift (m : Made s dflt) (ho' : OrdOk ord) (b : Bridge ord ds s.g) (hn : noNonassoc ds = true) (hs : noSelfFallback ds = true)
    {q : StateId} (hq : q < s.sts.length) {a c : SymbolId} {d : Detail}
    (ha : a < s.g.syms.length) (hak : (s.g.sym a).kind ≠ .nonTerminal) (ha0 : a ≠ 0) (hae : s.g.Pick (s.acts'.getD q []) dflt a .error)
    (hc : c < s.g.syms.length) (hck : (s.g.sym c).kind ≠ .nonTerminal) (hc0 : c ≠ 0) (hcd : s.g.Pick (s.acts'.getD q []) dflt c d) (hd : d ≠ .error) :
    ∃ f k, Stands s.g c f ∧ s.g.CanShift s.sts q f k := by
  have hE := b.fbEnds m.inv hs
  have htk : ∀ x, x < s.g.syms.length → (s.g.sym x).name.isTok = true → (s.g.sym x).kind ≠ .nonTerminal ∧ x ≠ 0 := by
    intro x hx hn
    refine ⟨?_, ?_⟩
    · intro h
      rcases m.inv.isTok_kind hx hn with h' | h' <;> rw [h] at h' <;> cases h'
    · rintro rfl
      rw [m.inv.dollar.1] at hn; cases hn
  have hne : ∀ x, (s.g.sym x).kind ≠ .nonTerminal → x ≠ dflt := by rintro x hk rfl; exact hk (m.inv.default_name m.dlt m.didx)
  obtain ⟨dd, ig, hcs, ho⟩ := m.own hq
  -- no default, and no action for the wildcard
  have key : ∀ {d}, s.g.Pick (s.acts'.getD q []) dflt a d → d = .error → dd = none ∧ ∀ w, s.g.wildcard = some w → ownOf (s.acts'.getD q []) w = none := by
    intro d hp
    clear hae
    induction hp with
    | own h =>
      rintro rfl
      rcases m.own_live b hn hq ha hak h with ⟨_, h, _⟩ | ⟨_, h, _⟩ <;> cases h
    | fb _ _ hf _ ih =>
      obtain ⟨h1, h2, _⟩ := m.inv.fb _ ha _ hf
      exact ih h1 (htk _ h1 h2).1 (htk _ h1 h2).2
    | wild _ _ _ hwc h =>
      rintro rfl
      obtain ⟨h1, h2⟩ := m.inv.wild _ hwc
      rcases m.own_live b hn hq h1 (htk _ h1 h2).1 h with ⟨_, h, _⟩ | ⟨_, h, _⟩ <;> cases h
    | dflt _ h =>
      intro he
      rw [ho.dfl] at he
      refine ⟨?_, ?_⟩
      · cases dd with
        | none => rfl
        | some r => cases he
      · rcases h with h | h
        · exact absurd h ha0
        · exact h.2
  obtain ⟨hdd, hwn⟩ := key hae rfl
  have hno : ∀ a ∈ s.acts.getD q [], a.la ∉ ig → ∀ r, a.detail = .reduce r → (s.g.rule r).lhsStart = true := by
    rcases (hcs.dNone hdd).2 with ⟨x, hx, _, hxw, k, hxd⟩ | h
    · exfalso
      obtain ⟨h1, h2⟩ := m.inv.wild _ hxw
      have hmem : Detail.shift k ∈ lives (onSym x.la (s.acts.getD q [])) := by
        unfold lives onSym
        rw [List.mem_filter, List.mem_map]
        exact ⟨⟨x, List.mem_filter.2 ⟨hx, by simp⟩, hxd⟩, rfl⟩
      rcases m.live b hn hq h1 (htk _ h1 h2).1 with ⟨hl, _⟩ | ⟨k', hl, _⟩ | ⟨r, hl, _⟩
      · rw [hl] at hmem; cases hmem
      · have := ho.shift x.la (hne _ (htk _ h1 h2).1) k' hl
        rw [hwn _ hxw] at this; cases this
      · rw [hl] at hmem; simp at hmem
    · exact h
  clear hae key
  induction hcd with
  | own h =>
    rcases m.own_live b hn hq hc hck h with ⟨k, _, h⟩ | ⟨r, _, hl⟩
    · exact ⟨_, k, .self, h⟩
    · obtain ⟨f, k, _, h1, h2⟩ := m.chain ho' b hn hq hcs.ign hno (hE _ hc) hc hck hc0 hl
      exact ⟨f, k, h1, h2⟩
  | fb _ _ hf _ ih =>
    obtain ⟨h1, h2, _⟩ := m.inv.fb _ hc _ hf
    obtain ⟨f, k, h3, h4⟩ := ih h1 (htk _ h1 h2).1 (htk _ h1 h2).2 hd
    exact ⟨f, k, .fallback hf h3, h4⟩
  | wild _ h0 _ hwc h => rw [hwn _ hwc] at h; cases h
  | dflt =>
    rw [ho.dfl, hdd] at hd
    exact absurd rfl hd

theorem Made.good_reduces (m : Made s dflt) (ho : OrdOk ord) (hA : apart ord ds = true) (sem : Sem V X E) {x0 : X} {toks : List (Tok V)} {p q : Parser V X}
    {a : SymbolId} (ha : a < s.g.syms.length) (hk : (s.g.sym a).kind = .terminal) (h0 : a ≠ 0) {mn : Minor V}
    (h : Reduces t sem (s.g.sym a).index mn p q) (hg : Good s sem x0 toks (s.g.sym a).index p) : Good s sem x0 toks (s.g.sym a).index q := by
  refine Reduces.inv ?_ h hg
  intro p1 q1 h1 _ h2
  rcases (m.good_step ho hA sem h1 ha hk mn).1 q1 h2 with h3 | ⟨h3, _⟩
  · exact h3
  · exact absurd h3 h0

theorem Made.pick_move (m : Made s dflt) (ho : OrdOk ord) {q : StateId} (hq : q < s.sts.length) {a : SymbolId} (ha : a < s.g.syms.length)
    (hk : (s.g.sym a).kind ≠ .nonTerminal) {d : Detail} (h : s.g.Pick (s.acts'.getD q []) dflt a d) :
    (∃ k, d = .shift k ∧ k < s.sts.length) ∨ (∃ r, d = .reduce r ∧ r < s.g.rules.length) ∨ d = .error := by
  have htk : ∀ x, x < s.g.syms.length → (s.g.sym x).name.isTok = true → (s.g.sym x).kind ≠ .nonTerminal := by
    intro x hx hn h
    rcases m.inv.isTok_kind hx hn with h' | h' <;> rw [h] at h' <;> cases h'
  have own : ∀ {b d}, (s.g.sym b).kind ≠ .nonTerminal → ownOf (s.acts'.getD q []) b = some d →
      (∃ k, d = .shift k ∧ k < s.sts.length) ∨ (∃ r, d = .reduce r ∧ r < s.g.rules.length) ∨ d = .error := by
    intro b d hk hd
    have hkt : (s.g.sym b).kind = .terminal := by
      have hd := hd
      unfold ownOf at hd
      cases hon : onSym b (s.acts'.getD q []) with
      | nil => rw [hon] at hd; cases hd
      | cons x l =>
        have hx : x ∈ onSym b (s.acts'.getD q []) := by rw [hon]; simp
        obtain ⟨hx1, hx2⟩ := mem_onSym.1 hx
        have := m.las'.kind q (by rw [m.len]; exact hq) x hx1
        rw [hx2] at this
        revert this hk
        cases (s.g.sym b).kind <;> simp
    rcases m.own_tok hq hkt hd with ⟨k, h1, h2⟩ | ⟨r, h1, h2⟩ | h1
    · obtain ⟨X, hX, _⟩ := h2
      exact .inl ⟨k, h1, hX.dst⟩
    · exact .inr (.inl ⟨r, h1, (canReduce_rule m.inv m.auto h2).1⟩)
    · exact .inr (.inr h1)
  induction h with
  | own h => exact own hk h
  | fb _ _ hf _ ih =>
    obtain ⟨h1, h2, _⟩ := m.inv.fb _ ha _ hf
    exact ih h1 (htk _ h1 h2)
  | wild _ _ _ hwc h =>
    obtain ⟨h1, h2⟩ := m.inv.wild _ hwc
    exact own (htk _ h1 h2) h
  | dflt =>
    rcases m.own_dflt hq with ⟨r, b, h1, _, h3⟩ | h
    · rw [h1]; exact .inr (.inl ⟨r, rfl, (canReduce_rule m.inv m.auto h3).1⟩)
    · rw [h]; exact .inr (.inr rfl)

theorem CanShift.reads {g : Grammar} {sts : List LState} {q k : StateId} {a : SymbolId} (h : g.CanShift sts q a k)
    (hk : (g.sym a).kind ≠ .nonTerminal) : ∃ X, g.Trans sts q X k ∧ Reads g X a := by
  obtain ⟨X, hX, hm⟩ := h
  refine ⟨X, hX, ?_⟩
  rcases (mem_shiftActions.1 hm).2 with ⟨h1, h2⟩ | ⟨h1, h2⟩
  · unfold Reads; rw [h1]; exact h2
  · simp only at h2
    subst h2
    unfold Reads
    revert hk h1
    cases (g.sym a).kind <;> simp

/-- A token that is in the list may come next. -/
theorem Made.expected_viable (m : Made s dflt) (ho : OrdOk ord) (hA : apart ord ds = true) (b : Bridge ord ds s.g) (hn : noNonassoc ds = true) (hs : noSelfFallback ds = true)
    (sem : Sem V X E) {x0 : X} {toks : List (Tok V)} {k : Nat} {q : Parser V X} (h0 : 0 < k) (hlt : k < t.numTerminals) (hg : Good s sem x0 toks k q)
    {top : Entry V} {rest : List (Entry V)} (hq : q.stack = top :: rest) (he : t.findShift top.state k = .ok (t.nState + t.nRule))
    {ex : List Nat} (hex : t.expected top.state = .ok ex) {j : Nat} (hj : j ∈ ex) (v : V) : ViablePrefix ds t.tokenNames (toks ++ [⟨j, v⟩]) := by
  obtain ⟨j0, jlt, c, hc, hcl⟩ := ((expected_spec hex).2 j).1 hj
  obtain ⟨a1, a2, a3, a4, a5⟩ := m.token h0 hlt
  obtain ⟨c1, c2, c3, c4, c5⟩ := m.token j0 jlt
  obtain ⟨_, γ, q0, ts, g1, g2, g3, _, _⟩ := hg
  have htop : top.state = s.num q0 := by
    have h := g1
    rw [hq] at h
    exact h.top m
  have hq0 : q0 < s.sts.length := Path.lt m.auto g1.path
  have hE := b.fbEnds m.inv hs
  have hka : (s.g.sym a1).kind ≠ .nonTerminal := by rw [a3]; simp
  have hkc : (s.g.sym c1).kind ≠ .nonTerminal := by rw [c3]; simp
  obtain ⟨d1, p1⟩ := pick_exists (l := s.acts'.getD q0 []) (dflt := dflt) (hE a1 a2)
  obtain ⟨d2, p2⟩ := pick_exists (l := s.acts'.getD q0 []) (dflt := dflt) (hE c1 c2)
  have l1 := m.tok_lookup hA hq0 p1 a2 hka
  have l2 := m.tok_lookup hA hq0 p2 c2 hkc
  rw [a4, ← htop, he] at l1
  rw [c4, ← htop, hc] at l2
  have e1 : d1 = .error := by
    have l1 := Except.ok.inj l1
    rcases m.pick_move ho hq0 a2 hka p1 with ⟨k, rfl, hk⟩ | ⟨r, rfl, hr⟩ | rfl
    · have := m.num_lt hk
      rw [m.code_shift] at l1; omega
    · have hr' : r < t.nRule := by rw [m.tab.nRule]; exact hr
      rw [m.code_reduce] at l1
      exact absurd l1 (Nat.ne_of_gt (Nat.add_lt_add_left hr' _))
    · rfl
  have e2 : d2 ≠ .error := by
    rintro rfl
    have l2 := Except.ok.inj l2
    rw [m.code_error] at l2; omega
  subst e1
  obtain ⟨f, k', f1, f2⟩ := m.expected_shift ho b hn hs hq0 a2 hka a5 p1 c2 hkc c5 p2 e2
  have hkf : (s.g.sym f).kind ≠ .nonTerminal := by
    have key : ∀ {x y}, Stands s.g x y → x < s.g.syms.length → (s.g.sym x).kind ≠ .nonTerminal → (s.g.sym y).kind ≠ .nonTerminal := by
      have htk : ∀ x, x < s.g.syms.length → (s.g.sym x).name.isTok = true → (s.g.sym x).kind ≠ .nonTerminal := by
        intro x hx hn h
        rcases m.inv.isTok_kind hx hn with h' | h' <;> rw [h] at h' <;> cases h'
      intro x y h
      induction h with
      | self => exact fun _ => id
      | fallback hf _ ih =>
        intro hx _
        obtain ⟨h1, h2, _⟩ := m.inv.fb _ hx _ hf
        exact ih h1 (htk _ h1 h2)
      | wildcard hw _ =>
        intro _ _
        obtain ⟨h1, h2⟩ := m.inv.wild _ hw
        exact htk _ h1 h2
    exact key f1 c2 hkc
  obtain ⟨Y, y1, y2⟩ := CanShift.reads f2 hkf
  have := m.viable ho b sem (.snoc g1.path y1) (ts := ts ++ [.leaf ⟨j, v⟩])
    (Grammar.Forest.append (g2.forest m.inv m.auto) (.leaf c2 c3 c5 c4.symm f1 y2 .nil))
  rw [GTree.yields_append, g3] at this
  exact this

end

end Pomelo
