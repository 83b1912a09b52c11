import Verif.Proofs.Twins
import Verif.Proofs.Unread
import Verif.Props.Decls
import Verif.Examples
/-! # C63: a token that no rule reads is its fallback -/

namespace Pomelo

open Spec

variable {ord : List (SymbolId × SymbolId) → List (SymbolId × SymbolId)} {ds : List Decl} {t : Tables} {V X E : Type}

theorem CSpec.tokenTag (ho : OrdOk ord) (s : CSpec ord ds t) {k : Nat} {i : Ident} (hk : t.tokenNames[k]? = some (.ident i)) : s.TagIs (plainType ds i) (t.tokenDt.getD k 0) := by
  have hi := s.ginv ho
  obtain ⟨b⟩ := bridge ho s.decls s.auto
  obtain ⟨x, hx, hxk, hxn, hxt, hkt, _⟩ := s.tokenSym ho hk
  have hxD : x < b.gD.syms.length := b.dropped hi hx (by rw [hxn]; simp)
  have hn : (b.gD.sym x).name = .ident i := by rw [← b.name hxD]; exact hxn
  have hcl : isClass ds i = false := by
    cases hcl : isClass ds i with
    | false => rfl
    | true =>
      have := (b.decl.sym b.dinv hxD hn).2.1.2 hcl
      rw [b.kind hxD, this] at hxt; cases hxt
  have hd : t.tokenDt.getD k 0 = s.tag x := by
    obtain ⟨p1, p2⟩ := hi.perm x hx
    have hlt : (s.g.sym x).index < s.g.symbols.length := by rw [hi.slen]; exact p1
    rw [getD_of_lt hlt] at p2
    rw [s.gen.numTerminals, s.gen.shape.nterm, ← hxk] at hkt
    rw [s.gen.tokenDt, List.getD_eq_getElem?_getD, List.getElem?_map, s.gen.shape.nterm, s.gen.shape.symbols, ← hxk, List.getElem?_take, if_pos hkt,
      List.getElem?_eq_getElem hlt, p2]
    rfl
  rw [hd]
  by_cases hw : wildcardOf ds = some i
  · have hwx := (b.wild_name hxD hn).2 hw
    have hp : plainType ds i = none := by unfold plainType; rw [if_pos hw]
    rw [hp]
    refine ⟨?_, by simp⟩
    obtain ⟨_, _, _, h4, _⟩ := assignTypes_spec s.gen.assign List.nodup_nil hi.symbols_nodup
    show (s.gen.gT.sym x).dtNum = _
    have h5 : (s.g.sym x).dtNum = (b.gD.sym x).dtNum := congrArg (·.2.2.2.2.2.2.1) (b.keep x hxD)
    rw [h4 x hwx, h5]
    exact (unnum_parsed b.parsed).sym x
  · exact (CSpec.plainTag ho b hxD hn hcl hw).2

theorem Spec.Falls.swaps (ho : OrdOk ord) (hc : compile ord ds = .ok t) {ρ : Nat → Nat} (h : Falls ds t.tokenNames ρ) : Swaps t ρ := by
  obtain ⟨s⟩ := compile_cspec hc
  have key : ∀ m, ρ m = m ∨ (m < t.numTerminals ∧ m ≠ 0 ∧ ρ m < t.numTerminals ∧ ρ m ≠ 0) := by
    intro m
    rcases h m with h | ⟨i, j, h1, h2, _⟩
    · exact .inl h
    · obtain ⟨_, _, _, _, _, a1, a2⟩ := s.tokenSym ho h1
      obtain ⟨_, _, _, _, _, b1, b2⟩ := s.tokenSym ho h2
      exact .inr ⟨a1, a2, b1, b2⟩
  refine ⟨?_, ?_, ?_, ?_, ?_, s.lhsOk ho⟩
  · intro st m
    rcases h m with h | ⟨i, j, h1, h2, h3, h4, _⟩
    · rw [h]
    · exact (s.unread_findShift ho h1 h2 h3 h4 st).symm
  · intro m
    rcases h m with h | ⟨i, j, h1, h2, _, _, h5⟩
    · rw [h]
    · rw [(s.tokenTag ho h1).1, (s.tokenTag ho h2).1, h5]
  · intro m; have := key m; omega
  · intro m; have := key m; omega
  · intro m hm; have := key m; omega

/-- C63: a token that no rule reads and that has the type of its fallback does what its fallback does.  Replacing any such tokens of an input by
their fallbacks changes nothing but the number that `%syntax_error` and `%stack_overflow` are shown: the same
values are returned by the same calls, the same blocks run with the same arguments in the same order, the same errors are reported with the same expected tokens. -/
theorem C63_unread (ho : OrdOk ord) (hc : compile ord ds = .ok t) {ρ : Nat → Nat} (hρ : Falls ds t.tokenNames ρ) (sem : Sem V X E) (fuel : Nat) (x : X)
    (toks : List (Tok V)) :
    Pomelo.runAll t sem fuel x (toks.map (Tok.swap ρ)) = (Pomelo.runAll t (sem.via ρ) fuel x toks).map (Res.swap ρ) :=
  (hρ.swaps ho hc).runAll fuel x toks

/-- The same for one call on any parser -/
theorem C63_call (ho : OrdOk ord) (hc : compile ord ds = .ok t) {ρ : Nat → Nat} (hρ : Falls ds t.tokenNames ρ) (sem : Sem V X E) (fuel : Nat) (p : Parser V X)
    (tok : Tok V) : Pomelo.parse t sem fuel (p.swap ρ) (tok.swap ρ) = (Pomelo.parse t (sem.via ρ) fuel p tok).map (Res.swap ρ) :=
  (hρ.swaps ho hc).parse fuel p tok

/-- What the caller sees is the same, if the blocks for errors do not look at the token. -/
theorem C63_seen (ho : OrdOk ord) (hc : compile ord ds = .ok t) {ρ : Nat → Nat} (hρ : Falls ds t.tokenNames ρ) (sem : Sem V X E)
    (h1 : ∀ k k' ex x, sem.syntaxError k ex x = sem.syntaxError k' ex x) (h2 : ∀ k k' x, sem.stackOverflow k x = sem.stackOverflow k' x) (fuel : Nat) (x : X)
    (toks : List (Tok V)) :
    (Pomelo.runAll t sem fuel x (toks.map (Tok.swap ρ))).map Res.seen = (Pomelo.runAll t sem fuel x toks).map Res.seen := by
  have hs : sem.via ρ = sem := by
    cases sem
    simp only [Sem.via, Sem.mk.injEq, true_and]
    refine ⟨?_, ?_⟩
    · funext k ex x; exact h1 _ _ _ _
    · funext k x; exact h2 _ _ _
  rw [C63_unread ho hc hρ sem, hs, Option.map_map]
  congr 1
  funext r
  cases r <;> rfl

/-- On the tables: in every state the token and its fallback have the same action, although the tables of the other tokens may overlap. -/
theorem C63_action (ho : OrdOk ord) (hc : compile ord ds = .ok t) {k l : Nat} {i j : Ident} (hk : t.tokenNames[k]? = some (.ident i))
    (hl : t.tokenNames[l]? = some (.ident j)) (hu : unread ds i = true) (hf : fallbackOf ds i = some j) (st : Nat) : t.findShift st k = t.findShift st l := by
  obtain ⟨s⟩ := compile_cspec hc
  exact s.unread_findShift ho hk hl hu hf st

namespace C63ex

open Tests Examples

/-- `%type ID T0; %type A T0; %fallback ID A; s ::= X ID(x) B {1}; s ::= X X C {2};` -/
def g : List Decl :=
  [.type false (U 0) (some (.named 0)), .type false (U 1) (some (.named 0)), .fallback (U 0) [U 1],
   r (L 0) [s (U 2), s (U 0) true, s (U 3)] (some 1), r (L 0) [s (U 2), s (U 2), s (U 4)] (some 2)]

/-- `A` becomes `ID`. -/
def ρ (m : Nat) : Nat := if m = 2 then 1 else m

example : (tablesOf g).tokenNames = [.dollar, .ident (U 0), .ident (U 1), .ident (U 2), .ident (U 3), .ident (U 4)] := by decide +kernel

theorem falls : compiles g = true ∧ Falls g (tablesOf g).tokenNames ρ := by
  refine ⟨by decide +kernel, fun m => ?_⟩
  by_cases h : m = 2
  · subst h
    exact .inr ⟨U 1, U 0, by decide +kernel, by decide +kernel, by decide +kernel, by decide +kernel, by decide +kernel⟩
  · exact .inl (by unfold ρ; rw [if_neg h])

/-- `X A B` is accepted like `X ID B`. -/
example : ∀ l ∈ [[3, 2, 4], [3, 1, 4]], ((Pomelo.runAll (tablesOf g) logSem 100 [] (tk l)).map Res.seen).map (fun x => x.toOption.map (fun y => (y.1, y.2.toOption.isSome))) = some (some ([1], true)) := by
  decide +kernel

/-- The two runs, by the theorem -/
example : (Pomelo.runAll (tablesOf g) logSem 100 [] (tk [3, 1, 4])).map Res.seen = (Pomelo.runAll (tablesOf g) logSem 100 [] (tk [3, 2, 4])).map Res.seen :=
  C63_seen OrdOk.id (compiles_iff falls.1) falls.2 logSem (fun _ _ _ _ => rfl) (fun _ _ _ => rfl) 100 [] (tk [3, 2, 4])

/-- How a run ends for the caller: the extra argument, and whether there is a result -/
def brief (ds : List Decl) (l : List Nat) : Option (Option (List Nat × Bool)) :=
  ((Pomelo.runAll (tablesOf ds) strictSem 100 [] (tk l)).map Res.seen).map (fun x => x.toOption.map (fun y => (y.1, y.2.toOption.isSome)))

/-- `%type A T0; %fallback ID A; s ::= X ID(x) B {1};`: `A` has a type, its fallback has none. -/
def types : List Decl := [.type false (U 1) (some (.named 0)), .fallback (U 0) [U 1], r (L 0) [s (U 2), s (U 0) true, s (U 3)] (some 1)]

/-- `X A B` panics, `X ID B` is accepted. -/
example : compiles types = true ∧ unread types (U 1) = true ∧ fallbackOf types (U 1) = some (U 0) ∧
    brief types [3, 1, 4] = some none ∧ brief types [3, 2, 4] = some (some ([1], true)) := by decide +kernel

/-- `%fallback ID A; s ::= X ID B {1}; s ::= X A C {2};`: a rule reads `A`. -/
def readA : List Decl := [.fallback (U 0) [U 1], r (L 0) [s (U 2), s (U 0), s (U 3)] (some 1), r (L 0) [s (U 2), s (U 1), s (U 4)] (some 2)]

/-- `X A B` is an error, `X ID B` is accepted. -/
example : compiles readA = true ∧ unread readA (U 1) = false ∧ fallbackOf readA (U 1) = some (U 0) ∧
    brief readA [3, 1, 4] = some (some ([], false)) ∧ brief readA [3, 2, 4] = some (some ([1], true)) := by decide +kernel

end C63ex

end Pomelo
