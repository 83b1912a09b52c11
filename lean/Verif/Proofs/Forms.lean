import Verif.Proofs.Root
import Verif.Spec.Forms
/-! # Sentential forms of the written grammar and of the numbered one -/

namespace Pomelo

open Spec

variable {V X E : Type}

/-! ## Expansions -/

theorem Spec.Expands.append_left {ds : List Decl} {a b : List RhsElem} (h : Expands ds a b) (c : List RhsElem) : Expands ds (c ++ a) (c ++ b) := by
  cases h with
  | @rule a b u al h => have := Expands.rule (ds := ds) (a := c ++ a) (b := b) (al := al) h; simpa using this
  | @absent a b i al => have := Expands.absent (ds := ds) (a := c ++ a) (b := b) (i := i) (al := al); simpa using this
  | @present a b i al => have := Expands.present (ds := ds) (a := c ++ a) (b := b) (i := i) (al := al); simpa using this

theorem Spec.Expands.append_right {ds : List Decl} {a b : List RhsElem} (h : Expands ds a b) (c : List RhsElem) : Expands ds (a ++ c) (b ++ c) := by
  cases h with
  | @rule a b u al h => have := Expands.rule (ds := ds) (a := a) (b := b ++ c) (al := al) h; simpa using this
  | @absent a b i al => have := Expands.absent (ds := ds) (a := a) (b := b ++ c) (i := i) (al := al); simpa using this
  | @present a b i al => have := Expands.present (ds := ds) (a := a) (b := b ++ c) (i := i) (al := al); simpa using this

/-- `es ⇒* es'` -/
abbrev ExpandsTo (ds : List Decl) : List RhsElem → List RhsElem → Prop := Relation.ReflTransGen (Expands ds)

theorem ExpandsTo.append_left {ds : List Decl} {a b : List RhsElem} (h : ExpandsTo ds a b) (c : List RhsElem) : ExpandsTo ds (c ++ a) (c ++ b) := by
  induction h with
  | refl => exact .refl
  | tail _ h ih => exact .tail ih (h.append_left c)

theorem ExpandsTo.append_right {ds : List Decl} {a b : List RhsElem} (h : ExpandsTo ds a b) (c : List RhsElem) : ExpandsTo ds (a ++ c) (b ++ c) := by
  induction h with
  | refl => exact .refl
  | tail _ h ih => exact .tail ih (h.append_right c)

theorem ExpandsTo.append {ds : List Decl} {a b c d : List RhsElem} (h : ExpandsTo ds a b) (h' : ExpandsTo ds c d) : ExpandsTo ds (a ++ c) (b ++ d) :=
  (h.append_right c).trans (h'.append_left b)

/-- Trees are derivations of their tokens. -/
theorem Spec.Fits.expands {ds : List Decl} {names : List SymName} {ts : List (Tree V)} {es : List RhsElem} (h : Spec.Fits ds names ts es) :
    ∃ es', ExpandsTo ds es es' ∧ List.Forall₂ (Reading ds names) (Tree.yields ts) es' := by
  induction h with
  | nil => exact ⟨[], .refl, .nil⟩
  | @tok k i j e ts es h1 h2 h3 _ ih =>
    obtain ⟨es', i1, i2⟩ := ih
    exact ⟨e :: es', i1.append_left [e], .cons ⟨i, j, h1, h2, h3⟩ i2⟩
  | @absent i al ts es _ ih =>
    obtain ⟨es', i1, i2⟩ := ih
    exact ⟨es', .head (Expands.absent (a := [])) i1, i2⟩
  | @present t i al ts es _ _ ih1 ih2 =>
    obtain ⟨e1, a1, a2⟩ := ih1
    obtain ⟨e2, b1, b2⟩ := ih2
    refine ⟨e1 ++ e2, .head (Expands.present (a := [])) (a1.append b1), ?_⟩
    simp only [Tree.yields, List.append_nil] at a2
    exact List.rel_append a2 b2
  | @rule n u kids al ts es h1 _ _ ih1 ih2 =>
    obtain ⟨e1, a1, a2⟩ := ih1
    obtain ⟨e2, b1, b2⟩ := ih2
    exact ⟨e1 ++ e2, .head (Expands.rule (a := []) (List.mem_of_getElem? h1)) (a1.append b1), List.rel_append a2 b2⟩

theorem Spec.Fits.append {ds : List Decl} {names : List SymName} {ts ts' : List (Tree V)} {es es' : List RhsElem} (h : Spec.Fits ds names ts es)
    (h' : Spec.Fits ds names ts' es') : Spec.Fits ds names (ts ++ ts') (es ++ es') := by
  induction h with
  | nil => exact h'
  | tok h1 h2 h3 _ ih => exact .tok h1 h2 h3 ih
  | absent _ ih => exact .absent ih
  | present h1 _ _ ih => exact .present h1 ih
  | rule h1 h2 _ _ ih => exact .rule h1 h2 ih

theorem Spec.Fits.split {ds : List Decl} {names : List SymName} {es es' : List RhsElem} : ∀ {ts : List (Tree V)}, Spec.Fits ds names ts (es ++ es') →
    ∃ a b, ts = a ++ b ∧ Spec.Fits ds names a es ∧ Spec.Fits ds names b es' := by
  induction es with
  | nil => intro ts h; exact ⟨[], ts, rfl, .nil, h⟩
  | cons e es ih =>
    intro ts h
    simp only [List.cons_append] at h
    cases h with
    | tok h1 h2 h3 h =>
      obtain ⟨a, b, rfl, i1, i2⟩ := ih h
      exact ⟨_ :: a, b, rfl, .tok h1 h2 h3 i1, i2⟩
    | absent h =>
      obtain ⟨a, b, rfl, i1, i2⟩ := ih h
      exact ⟨_ :: a, b, rfl, .absent i1, i2⟩
    | present h1 h =>
      obtain ⟨a, b, rfl, i1, i2⟩ := ih h
      exact ⟨_ :: a, b, rfl, .present h1 i1, i2⟩
    | rule h1 h2 h =>
      obtain ⟨a, b, rfl, i1, i2⟩ := ih h
      exact ⟨_ :: a, b, rfl, .rule h1 h2 i1, i2⟩

theorem Tree.yields_append (a b : List (Tree V)) : Tree.yields (a ++ b) = Tree.yields a ++ Tree.yields b := by
  induction a with
  | nil => rfl
  | cons t ts ih => simp [Tree.yields, ih]

/-- The alias of an element is irrelevant. -/
theorem Spec.Fits.alias {ds : List Decl} {names : List SymName} {ts : List (Tree V)} {i : Ident} {o al al' : Bool} (h : Spec.Fits ds names ts [⟨[i], o, al⟩]) :
    Spec.Fits ds names ts [⟨[i], o, al'⟩] := by
  cases h with
  | tok h1 h2 h3 h => exact .tok h1 h2 h3 h
  | absent h => exact .absent h
  | present h1 h => exact .present h1 h
  | rule h1 h2 h => exact .rule h1 h2 h

/-- Trees of a derived form make trees of the form it is derived from. -/
theorem Spec.Fits.back {ds : List Decl} {names : List SymName} {es es' : List RhsElem} (h : ExpandsTo ds es es') {ts : List (Tree V)} (hf : Spec.Fits ds names ts es') :
    ∃ ts', Spec.Fits ds names ts' es ∧ Tree.yields ts' = Tree.yields ts := by
  induction h generalizing ts with
  | refl => exact ⟨ts, hf, rfl⟩
  | @tail b' c' _ h ih =>
    have : ∃ ts', Spec.Fits ds names ts' b' ∧ Tree.yields ts' = Tree.yields ts := by
      cases h with
      | @rule a b u al hu =>
        obtain ⟨x, y, rfl, h1, h2⟩ := Fits.split hf
        obtain ⟨x, z, rfl, h1, h3⟩ := Fits.split h1
        obtain ⟨n, hn⟩ := List.mem_iff_getElem?.1 hu
        exact ⟨x ++ .rule n z :: y, h1.append (.rule hn h3 h2), by simp [Tree.yields_append, Tree.yields, Tree.yield]⟩
      | @absent a b i al =>
        obtain ⟨x, y, rfl, h1, h2⟩ := Fits.split hf
        exact ⟨x ++ .absent :: y, h1.append (.absent h2), by simp [Tree.yields_append, Tree.yields, Tree.yield]⟩
      | @present a b i al =>
        obtain ⟨x, y, rfl, h1, h2⟩ := Fits.split hf
        obtain ⟨z, y, rfl, h2, h3⟩ := Fits.split (es := [⟨[i], false, false⟩]) h2
        obtain ⟨t, rfl⟩ : ∃ t, z = [t] := by
          cases h2 with
          | tok _ _ _ h => cases h; exact ⟨_, rfl⟩
          | rule _ _ h => cases h; exact ⟨_, rfl⟩
        exact ⟨x ++ .present t :: y, h1.append (.present h2 h3), by simp [Tree.yields_append, Tree.yields, Tree.yield]⟩
    obtain ⟨t1, h1, h2⟩ := this
    obtain ⟨t2, h3, h4⟩ := ih h1
    exact ⟨t2, h3, h4.trans h2⟩

/-! ## Derivations of the numbered grammar -/

section
variable {ord : List (SymbolId × SymbolId) → List (SymbolId × SymbolId)} {ds : List Decl} {g : Grammar}

theorem forall₂_split {α β : Type} {R : α → β → Prop} : ∀ {l : List α} {a b : List β}, List.Forall₂ R l (a ++ b) →
    ∃ x y, l = x ++ y ∧ List.Forall₂ R x a ∧ List.Forall₂ R y b := by
  intro l a
  induction a generalizing l with
  | nil => intro b h; exact ⟨[], l, rfl, .nil, h⟩
  | cons c a ih =>
    intro b h
    cases h with
    | cons h1 h2 =>
      obtain ⟨x, y, rfl, i1, i2⟩ := ih h2
      exact ⟨_ :: x, y, rfl, .cons h1 i1, i2⟩

/-- Derivations of the numbered grammar are derivations of the written one. -/
theorem Bridge.expands (ho : OrdOk ord) (b : Bridge ord ds g) {α β : List SymbolId} (h : Derives g α β) {es : List RhsElem} (hes : List.Forall₂ (ElemSym b.gD) es α) :
    ∃ es', ExpandsTo ds es es' ∧ List.Forall₂ (ElemSym b.gD) es' β := by
  induction h with
  | refl => exact ⟨es, .refl, hes⟩
  | tail _ h ih =>
    obtain ⟨es1, h1, h2⟩ := ih
    obtain ⟨u, v, r, hr, rfl, rfl⟩ := h
    obtain ⟨x, y, rfl, h3, h4⟩ := forall₂_split h2
    cases h4 with
    | @cons e _ y _ h4 h5 =>
      by_cases hlt : r < (rulesOf ds).length
      · obtain ⟨_, _, w2, w3, _, _⟩ := b.written ho (List.getElem?_eq_getElem hlt)
        have he : ∃ al, e = ⟨[((rulesOf ds)[r]).lhs], false, al⟩ := by
          rcases e with ⟨toks, opt, al⟩
          rcases h4 with ⟨tok, e1, e2, e3⟩ | ⟨tok, S, e1, e2, e3, e4, e5⟩ | ⟨_, e2, _⟩
          · rw [w2] at e3
            simp only at e1 e2
            cases e3
            exact ⟨al, by rw [e1, e2]⟩
          · obtain ⟨_, _, _, k, _, hn⟩ := b.opt_name e4
            rw [w2] at hn; cases hn
          · rw [w2] at e2; cases e2
        obtain ⟨al, rfl⟩ := he
        refine ⟨x ++ ((rulesOf ds)[r]).rhs ++ y, h1.tail (.rule (List.getElem_mem hlt)), List.rel_append (List.rel_append h3 w3) h5⟩
      · obtain ⟨o, o1, o2, o3⟩ := b.unwritten ho hr (Nat.le_of_not_lt hlt)
        obtain ⟨_, _, _, k, _, hn⟩ := b.opt_name o1
        have he : ∃ i al, e = ⟨[i], true, al⟩ ∧ (b.gD.sym o.1).name = .ident i := by
          rcases e with ⟨toks, opt, al⟩
          rw [o2] at h4
          rcases h4 with ⟨tok, e1, e2, e3⟩ | ⟨tok, S, e1, e2, e3, e4, e5⟩ | ⟨_, e2, _⟩
          · rw [hn] at e3; cases e3
          · simp only at e1 e2
            have : o = (S, o.2) := b.opt_inj o1 e4 rfl
            exact ⟨tok, al, by rw [e1, e2], by rw [this]; exact e5⟩
          · rw [hn] at e2; cases e2
        obtain ⟨i, al, rfl, hi⟩ := he
        rcases o3 with ⟨o3, _⟩ | ⟨o3, _⟩
        · refine ⟨x ++ y, h1.tail .absent, ?_⟩
          have : g.rhsSyms r = [] := by unfold Grammar.rhsSyms; rw [o3]; rfl
          rw [this, List.append_nil]
          exact List.rel_append h3 h5
        · refine ⟨x ++ ⟨[i], false, false⟩ :: y, h1.tail .present, ?_⟩
          have : g.rhsSyms r = [o.1] := by unfold Grammar.rhsSyms; rw [o3]; rfl
          rw [this, List.append_assoc]
          exact List.rel_append h3 (.cons (.inl ⟨i, rfl, rfl, hi⟩) h5)

/-- What is before and after the dot of a valid item is derived from the start symbol. -/
theorem Spec.Viable.derives {γ : List SymbolId} {c : Item} (h : Viable g γ c) :
    ∃ δ, Derives g [g.start.getD 0] (γ ++ (g.rhsSyms c.rule).drop c.dot ++ δ) := by
  induction h with
  | @start r h => exact ⟨[], by simpa [h.2] using Derives.rule h.1⟩
  | @close γ c A r h1 h2 h3 ih =>
    obtain ⟨δ, hd⟩ := ih
    refine ⟨(g.rhsSyms c.rule).drop (c.dot + 1) ++ δ, hd.tail ⟨γ, (g.rhsSyms c.rule).drop (c.dot + 1) ++ δ, r, h3.1, ?_, by simp⟩⟩
    unfold atDot at h2
    obtain ⟨hl, hA⟩ := List.getElem?_eq_some_iff.1 h2
    rw [List.drop_eq_getElem_cons hl, hA, h3.2]
    simp
  | @shift γ c X h1 h2 ih =>
    obtain ⟨δ, hd⟩ := ih
    refine ⟨δ, ?_⟩
    unfold atDot at h2
    obtain ⟨hl, hA⟩ := List.getElem?_eq_some_iff.1 h2
    rw [List.drop_eq_getElem_cons hl, hA] at hd
    simpa using hd

/-- What is on the stack is a prefix of a sentential form. -/
theorem Grammar.Path.derives (hi : GInv g) {sts : List LState} (ha : Auto g sts) {γ : List SymbolId} {q : StateId} (h : g.Path sts γ q) :
    ∃ δ, Derives g [g.start.getD 0] (γ ++ δ) := by
  cases h with
  | nil => exact ⟨[g.start.getD 0], Relation.ReflTransGen.refl⟩
  | @snoc γ q X k h1 h2 =>
    obtain ⟨c, hc, hn⟩ := h2.some
    obtain ⟨δ, hd⟩ := (Viable.shift ((path_items hi ha h1 c).1 hc) hn).derives
    exact ⟨_, by rw [List.append_assoc] at hd; exact hd⟩

end

/-- The tokens of the trees on a path of the automaton are a prefix of a sentential form. -/
theorem Made.viable {ord : List (SymbolId × SymbolId) → List (SymbolId × SymbolId)} {ds : List Decl} {t : Tables} {s : CSpec ord ds t} {dflt : SymbolId}
    (m : Made s dflt) (ho : OrdOk ord) (b : Bridge ord ds s.g) (sem : Sem V X E) {γ : List SymbolId} {q : StateId} {ts : List (GTree V)}
    (h1 : s.g.Path s.sts γ q) (h2 : s.g.Forest ts γ) : ViablePrefix ds t.tokenNames (GTree.yields ts) := by
  obtain ⟨δ, hd⟩ := h1.derives m.inv m.auto
  obtain ⟨st, i, g1, g2, g3, g4, _⟩ := b.start_name m.inv
  rw [g1, Option.getD_some] at hd
  obtain ⟨es, e1, e2⟩ := b.expands ho hd (es := [⟨[i], false, false⟩]) (.cons (.inl ⟨i, rfl, rfl, g3⟩) .nil)
  obtain ⟨a, rest, rfl, e3, _⟩ := forall₂_split e2
  obtain ⟨c1, _, _, c4⟩ := m.conv ho b sem h2
  have hγ : ∀ X ∈ γ, X < b.gD.syms.length := by
    intro X hX
    have : ∀ {γ q}, s.g.Path s.sts γ q → ∀ X ∈ γ, X < b.gD.syms.length := by
      intro γ q hp
      induction hp with
      | nil => intro X hX; cases hX
      | snoc _ h2 ih =>
        intro X hX
        rcases List.mem_append.1 hX with h | h
        · exact ih X h
        · simp only [List.mem_singleton] at h
          subst h
          obtain ⟨r, hr, hx⟩ := h2.rhs m.inv m.auto
          by_cases hlt : r < (rulesOf ds).length
          · obtain ⟨_, _, _, _, w4, _⟩ := b.written ho (List.getElem?_eq_getElem hlt)
            exact w4 _ hx
          · obtain ⟨o, o1, _, o3⟩ := b.unwritten ho hr (Nat.le_of_not_lt hlt)
            obtain ⟨l1, _⟩ := b.opt_name o1
            unfold Grammar.rhsSyms at hx
            rcases o3 with ⟨o3, _⟩ | ⟨o3, _⟩
            · rw [o3] at hx; cases hx
            · rw [o3] at hx
              simp only [List.map_cons, List.map_nil, List.mem_singleton] at hx
              rw [hx]; exact l1
    exact this h1 X hX
  obtain ⟨es', f1, f2⟩ := Fits.expands (c4 a hγ e3)
  rw [c1] at f2
  exact ⟨es', rest, ⟨i, g4, e1.trans (f1.append_right rest)⟩, by simpa using f2⟩

end Pomelo
