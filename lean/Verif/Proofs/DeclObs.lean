import Verif.Proofs.DeclAll
import Verif.Spec.Decls
/-! # What the declarations leave in the symbols, by name -/

namespace Pomelo

/-- The declared attributes of a symbol, other symbols given by name -/
structure Attrs where
  dataType : Option Ty := none
  precedence : Option Precedence := none
  fallback : Option SymName := none
  multi : Bool := false
  subs : List SymName := []
  attributes : Bool := false
  deriving DecidableEq

/-- Attributes of a symbol -/
def Symbol.attrs (g : Grammar) (b : Symbol) : Attrs :=
  { dataType := b.dataType, precedence := b.precedence, fallback := b.fallback.map (fun f => (g.sym f).name)
    multi := b.kind = .multiTerminal, subs := b.subs.map (fun m => (g.sym m).name), attributes := b.attributes }

/-- Attributes of the symbol of a given name -/
def Grammar.obs (g : Grammar) (i : Ident) : Attrs :=
  match g.symbolFind (.ident i) with
  | some s => (g.sym s).attrs g
  | none => {}

theorem symbolFind_spec {g : Grammar} (h : DInv g) {s : SymbolId} (hs : s < g.syms.length) (hn : (g.sym s).name ≠ .anon) :
    g.symbolFind (g.sym s).name = some s := by
  unfold Grammar.symbolFind
  cases hf : g.symbols.find? (fun x => (g.sym x).name = (g.sym s).name) with
  | none =>
    rw [List.find?_eq_none] at hf
    have := hf s (by rw [h.symbols]; exact List.mem_range.2 hs)
    simp at this
  | some x =>
    have h1 := List.find?_some hf
    have h2 := List.mem_of_find?_eq_some hf
    rw [h.symbols] at h2
    simp only [decide_eq_true_eq] at h1
    rw [h.names s x hs (List.mem_range.1 h2) h1.symm hn]

theorem symbolFind_none {g : Grammar} {n : SymName} (h : g.symbols = List.range g.syms.length) :
    g.symbolFind n = none ↔ ∀ s, s < g.syms.length → (g.sym s).name ≠ n := by
  unfold Grammar.symbolFind
  rw [List.find?_eq_none, h]
  simp [List.mem_range]

theorem obs_of_name {g : Grammar} (h : DInv g) {s : SymbolId} (hs : s < g.syms.length) {i : Ident}
    (hn : (g.sym s).name = .ident i) : g.obs i = (g.sym s).attrs g := by
  unfold Grammar.obs
  rw [← hn, symbolFind_spec h hs (by rw [hn]; simp)]

theorem obs_blank {g : Grammar} (h : DInv g) {i : Ident} (hn : ∀ s, s < g.syms.length → (g.sym s).name ≠ .ident i) :
    g.obs i = {} := by
  unfold Grammar.obs
  rw [(symbolFind_none h.symbols).2 hn]

theorem attrs_congr {g g' : Grammar} {b : Symbol}
    (hf : ∀ f, b.fallback = some f → (g'.sym f).name = (g.sym f).name)
    (hs : ∀ m ∈ b.subs, (g'.sym m).name = (g.sym m).name) : b.attrs g' = b.attrs g := by
  unfold Symbol.attrs
  congr 1
  · cases hb : b.fallback with
    | none => rfl
    | some f => simp [hf f hb]
  · exact List.map_congr_left hs

theorem attrs_le {g g' : Grammar} (hd : DInv g) (h : DLe g g') {s : SymbolId} (hs : s < g.syms.length) :
    (g.sym s).attrs g' = (g.sym s).attrs g :=
  attrs_congr (fun f hf => h.name f (hd.fb s hs f hf).1) (fun m hm => h.name m (hd.subs s hs m hm).1)

/-- Two grammars with the same named symbols -/
theorem obs_eq {g g' : Grammar} (h : DInv g) (h' : DInv g') (hle : DLe g g')
    (hold : ∀ s, s < g.syms.length → (g'.sym s).attrs g' = (g.sym s).attrs g)
    (hnew : ∀ s, g.syms.length ≤ s → s < g'.syms.length → (∀ i, (g'.sym s).name ≠ .ident i) ∨ (g'.sym s).attrs g' = {}) (i : Ident) :
    g'.obs i = g.obs i := by
  by_cases hex : ∃ s, s < g'.syms.length ∧ (g'.sym s).name = .ident i
  · obtain ⟨s, hs, hn⟩ := hex
    rw [obs_of_name h' hs hn]
    by_cases hl : s < g.syms.length
    · rw [hold s hl, obs_of_name h hl (by rw [← hle.name s hl]; exact hn)]
    · rcases hnew s (Nat.le_of_not_lt hl) hs with hx | hx
      · exact absurd hn (hx i)
      · rw [hx, obs_blank h]
        intro x hx2 he
        have := h'.names s x hs (Nat.lt_of_lt_of_le hx2 hle.len) (by rw [hn, hle.name x hx2, he]) (by rw [hn]; simp)
        omega
  · rw [obs_blank h' (fun s hs he => hex ⟨s, hs, he⟩), obs_blank h]
    intro s hs he
    exact hex ⟨s, Nat.lt_of_lt_of_le hs hle.len, by rw [hle.name s hs]; exact he⟩

/-- Changing one symbol -/
theorem obs_modify {g : Grammar} (h : DInv g) {s : SymbolId} (hs : s < g.syms.length) {f : Symbol → Symbol}
    (hf : ∀ b, (f b).name = b.name) (i : Ident) :
    (g.modifySym s f).obs i = if (g.sym s).name = .ident i then (f (g.sym s)).attrs g else g.obs i := by
  have hn : ∀ x, ((g.modifySym s f).sym x).name = (g.sym x).name := proj_modifySym Symbol.name hf
  have ha : ∀ b : Symbol, b.attrs (g.modifySym s f) = b.attrs g := fun b => attrs_congr (fun _ _ => hn _) (fun _ _ => hn _)
  have hfind : ∀ n, (g.modifySym s f).symbolFind n = g.symbolFind n := by
    intro n; unfold Grammar.symbolFind
    show List.find? _ g.symbols = _
    simp only [hn]
  by_cases he : (g.sym s).name = .ident i
  · rw [if_pos he]
    unfold Grammar.obs
    rw [hfind, ← he, symbolFind_spec h hs (by rw [he]; simp)]
    simp only [ha, sym_modifySym_same hs]
  · rw [if_neg he]
    unfold Grammar.obs
    rw [hfind]
    cases hx : g.symbolFind (.ident i) with
    | none => rfl
    | some x =>
      have : x ≠ s := by
        rintro rfl
        have := List.find?_some hx
        simp only [decide_eq_true_eq] at this
        exact he this
      simp only [ha, sym_modifySym_ne this]

theorem obs_modify_same {g : Grammar} {s : SymbolId} {f : Symbol → Symbol}
    (hf : ∀ b, (f b).name = b.name) (ha : ∀ b, (f b).attrs g = b.attrs g) (i : Ident) :
    (g.modifySym s f).obs i = g.obs i := by
  have hn : ∀ x, ((g.modifySym s f).sym x).name = (g.sym x).name := proj_modifySym Symbol.name hf
  have ha2 : ∀ b : Symbol, b.attrs (g.modifySym s f) = b.attrs g := fun b => attrs_congr (fun _ _ => hn _) (fun _ _ => hn _)
  have hfind : ∀ n, (g.modifySym s f).symbolFind n = g.symbolFind n := by
    intro n; unfold Grammar.symbolFind
    show List.find? _ g.symbols = _
    simp only [hn]
  unfold Grammar.obs
  rw [hfind]
  split
  · rw [ha2]
    exact proj_modifySym (g := g) (s := s) (f := f) (fun b => b.attrs g) ha _
  · rfl

theorem obs_push {g : Grammar} (h : DInv g) {b : Symbol} (hb : (∀ i, b.name ≠ .ident i) ∨
      (b = { name := b.name, kind := b.kind } ∧ ∀ s, s < g.syms.length → (g.sym s).name ≠ b.name)) (i : Ident) :
    (g.pushSym b).obs i = if b.name = .ident i then { multi := b.kind = .multiTerminal } else g.obs i := by
  have hle : DLe g (g.pushSym b) := DLe.push g b
  have hf : (g.pushSym b).symbolFind (.ident i) =
      (g.symbolFind (.ident i)).or (if b.name = .ident i then some g.syms.length else none) := by
    unfold Grammar.symbolFind
    show List.find? _ (g.symbols ++ [g.syms.length]) = _
    rw [List.find?_append]
    congr 1
    · have : ∀ l : List SymbolId, (∀ x ∈ l, x < g.syms.length) →
          l.find? (fun x => decide (((g.pushSym b).sym x).name = .ident i)) = l.find? (fun x => decide ((g.sym x).name = .ident i)) := by
        intro l
        induction l with
        | nil => intro _; rfl
        | cons a l ih =>
          intro hl
          rw [List.find?_cons, List.find?_cons, ih (fun x hx => hl x (List.mem_cons_of_mem _ hx)),
            sym_pushSym_lt (hl a List.mem_cons_self)]
      exact this _ (fun x hx => by rw [h.symbols] at hx; exact List.mem_range.1 hx)
    · rw [List.find?_singleton, sym_pushSym_last]
      by_cases he : b.name = .ident i <;> simp [he]
  by_cases he : b.name = .ident i
  · rw [if_pos he]
    rcases hb with hb | ⟨hb, hno⟩
    · exact absurd he (hb i)
    · unfold Grammar.obs
      rw [hf, (symbolFind_none h.symbols).2 (fun s hs => by rw [← he]; exact hno s hs)]
      simp only [he, if_true, Option.none_or]
      rw [sym_pushSym_last, hb]
      rfl
  · rw [if_neg he]
    unfold Grammar.obs
    rw [hf]
    simp only [he, if_false, Option.or_none]
    cases hx : g.symbolFind (.ident i) with
    | none => rfl
    | some s =>
      have hs : s < g.syms.length := by
        have := List.mem_of_find?_eq_some hx
        rw [h.symbols] at this
        exact List.mem_range.1 this
      simp only [sym_pushSym_lt hs, attrs_le h hle hs]

theorem obs_symbolNew {g : Grammar} (h : DInv g) {n : SymName} {k : SymKind} (hk : askOk n k = true) (i : Ident) :
    (g.symbolNew n k).1.obs i = if n = .ident i ∧ k = .multiTerminal then { g.obs i with multi := true } else g.obs i := by
  rcases symbolNew_cases h.symbols n k with ⟨s, hs, hn, ha, he⟩ | ⟨hn, he⟩
  · rw [he]
    simp only
    rw [obs_modify h hs (f := touch k) (fun _ => rfl), hn]
    by_cases hi : n = .ident i
    · rw [if_pos hi]
      rw [obs_of_name h hs (hn.trans hi)]
      have hkk := h.kinds s hs
      rw [hn, hi] at hkk
      rw [hi] at hk
      by_cases hm : k = .multiTerminal
      · rw [if_pos ⟨hi, hm⟩]
        subst hm
        unfold touch Symbol.attrs
        simp only [true_and]
        congr 1
        revert hkk hk
        generalize (g.sym s).kind = kd
        cases i <;> cases kd <;> simp [kindOk, askOk]
      · rw [if_neg (fun hh => hm hh.2)]
        unfold touch Symbol.attrs
        simp [hm]
    · rw [if_neg hi, if_neg (fun hh => hi hh.1)]
  · rw [he]
    simp only
    have hno : n ≠ .anon → ∀ s, s < g.syms.length → (g.sym s).name ≠ n := by
      intro ha
      rcases hn with hn | hn
      · exact absurd hn ha
      · exact hn
    rw [obs_push h (b := { name := n, kind := k }) (by
      by_cases ha : n = .anon
      · left; intro i; rw [ha]; simp
      · right; exact ⟨rfl, hno ha⟩)]
    simp only
    by_cases hi : n = .ident i
    · rw [if_pos hi]
      rw [obs_blank h (i := i) (fun s hs => by rw [← hi]; exact hno (by rw [hi]; simp) s hs)]
      by_cases hm : k = .multiTerminal
      · rw [if_pos ⟨hi, hm⟩, hm]; rfl
      · rw [if_neg (fun hh => hm hh.2)]; simp [hm]
    · rw [if_neg hi, if_neg (fun hh => hi hh.1)]

theorem obs_symbolNew' {g : Grammar} (h : DInv g) {n : SymName} {k : SymKind} (hk : askOk n k = true)
    (hm : k ≠ .multiTerminal) (i : Ident) : (g.symbolNew n k).1.obs i = g.obs i := by
  rw [obs_symbolNew h hk, if_neg (fun hh => hm hh.2)]

theorem obs_congr {g g' : Grammar} (h1 : g'.syms = g.syms) (h2 : g'.symbols = g.symbols) (i : Ident) : g'.obs i = g.obs i := by
  unfold Grammar.obs Grammar.symbolFind Symbol.attrs Grammar.sym
  rw [h1, h2]

theorem obs_declTokens {e : GErr} : ∀ {ids : List Ident} {g g' : Grammar} {ss : List SymbolId}, DInv g →
    g.declTokens e ids = .ok (g', ss) → ∀ i, g'.obs i = g.obs i := by
  intro ids
  induction ids with
  | nil => intro g g' ss h he i; cases he; rfl
  | cons id ids ih =>
    intro g g' ss h he i
    unfold Grammar.declTokens at he
    split at he
    · cases he
    · rename_i hid
      rcases hs : g.symbolNew (.ident id) .terminal with ⟨g1, s⟩
      have h1 := h.symbolNew (askOk_upper hid)
      have h2 := obs_symbolNew' h (askOk_upper hid) (by simp) i
      rw [hs] at he h1 h2
      simp only at he h2
      split at he
      · rename_i g2 ss2 h3
        cases he
        rw [ih h1.1 h3, h2]
      · cases he

/-! ## The directives -/

theorem obs_declAssoc {p : Precedence} : ∀ {ids : List Ident} {g g' : Grammar}, DInv g →
    g.declAssoc p ids = .ok g' →
    ids.Nodup ∧ (∀ i ∈ ids, (g.obs i).precedence = none) ∧
    ∀ i, g'.obs i = if i ∈ ids then { g.obs i with precedence := some p } else g.obs i := by
  intro ids
  induction ids with
  | nil => intro g g' h he; cases he; simp
  | cons id ids ih =>
    intro g g' h he
    unfold Grammar.declAssoc at he
    split at he
    · cases he
    · rename_i hid
      have h1 := h.symbolNew (askOk_upper hid)
      have h2 := obs_symbolNew' h (askOk_upper hid) (by simp)
      rcases hs : g.symbolNew (.ident id) .terminal with ⟨g1, s⟩
      rw [hs] at he h1 h2
      simp only at he h1 h2
      obtain ⟨a1, a2, a3, a4, a5⟩ := h1
      split at he
      · cases he
      · rename_i hp
        have hd : DInv (g1.modifySym s (fun b => { b with precedence := some p })) :=
          a1.modify_other (fun _ => rfl) (fun _ => rfl) (fun _ => rfl) (fun _ => rfl) (fun _ => rfl) (fun _ => rfl) (fun _ => rfl)
        have hob := fun i => obs_modify a1 a3 (f := fun b => { b with precedence := some p }) (fun _ => rfl) i
        obtain ⟨b1, b2, b3⟩ := ih hd he
        have hobs : g1.obs id = (g1.sym s).attrs g1 := obs_of_name a1 a3 a4
        have hself : (g1.modifySym s (fun b => { b with precedence := some p })).obs id =
            { g.obs id with precedence := some p } := by
          rw [hob, if_pos a4, ← h2, hobs]; rfl
        have hother : ∀ i, i ≠ id → (g1.modifySym s (fun b => { b with precedence := some p })).obs i = g.obs i := by
          intro i hi
          rw [hob, if_neg (by rw [a4]; intro e; injection e with e; exact hi e.symm), h2]
        have hni : id ∉ ids := by
          intro hm
          have := b2 id hm
          rw [hself] at this
          cases this
        refine ⟨List.nodup_cons.2 ⟨hni, b1⟩, ?_, ?_⟩
        · intro i hi
          rcases List.mem_cons.1 hi with rfl | hi2
          · rw [← h2, hobs]; exact hp
          · have := b2 i hi2
            rw [hother i (by rintro rfl; exact hni hi2)] at this
            exact this
        · intro i
          rw [b3]
          by_cases hi : i = id
          · subst hi
            simp [hni, hself]
          · rw [hother i hi]
            simp [hi]

theorem obs_setFallbacks {f : SymbolId} {fb : Ident} : ∀ {ids : List Ident} {ss : List SymbolId} {g g' : Grammar}, DInv g →
    f < g.syms.length → (g.sym f).name = .ident fb → fb.isTerminal = true →
    List.Forall₂ (fun s id => s < g.syms.length ∧ (g.sym s).name = .ident id ∧ (g.sym s).name.isTok = true) ss ids →
    g.setFallbacks f ss = .ok g' →
    ids.Nodup ∧ (∀ i ∈ ids, (g.obs i).fallback = none) ∧
    ∀ i, g'.obs i = if i ∈ ids then { g.obs i with fallback := some (.ident fb) } else g.obs i := by
  intro ids
  induction ids with
  | nil => intro ss g g' h hf hn ht hs he; cases hs; cases he; simp
  | cons id ids ih =>
    intro ss g g' h hf hn ht hs he
    cases hs with
    | cons hh hs =>
      rename_i s ss
      obtain ⟨hs1, hs2, hs3⟩ := hh
      unfold Grammar.setFallbacks at he
      split at he
      · cases he
      · rename_i hnone
        have htok : (g.sym f).name.isTok = true := by
          rw [hn]; cases fb <;> simp_all [Ident.isTerminal, SymName.isTok]
        have hd : DInv (g.modifySym s (fun b => { b with fallback := some f })) := by
          refine h.modify (fun _ => rfl) (fun _ => rfl) (fun _ => rfl) (fun _ => rfl) ?_ ?_ ?_ ?_
          · intro hl; exact h.kinds s hl
          · intro hl; exact h.subs s hl
          · intro hl; exact h.subsKind s hl
          · intro _ x hx; cases hx; exact ⟨hf, htok, hs3⟩
        have hd2 : DInv { g.modifySym s (fun b => { b with fallback := some f }) with hasFallback := true } :=
          hd.congr rfl rfl rfl rfl rfl rfl rfl
        have hnm : ∀ x, ((g.modifySym s (fun b => { b with fallback := some f })).sym x).name = (g.sym x).name :=
          proj_modifySym Symbol.name (fun _ => rfl)
        have hln : (g.modifySym s (fun b => { b with fallback := some f })).syms.length = g.syms.length := length_modifySym _ _ _
        have hob := fun i => obs_modify h hs1 (f := fun b => { b with fallback := some f }) (fun _ => rfl) i
        obtain ⟨b1, b2, b3⟩ := ih (ss := ss) (g := { g.modifySym s (fun b => { b with fallback := some f }) with hasFallback := true })
          hd2 (by show f < (g.modifySym s _).syms.length; rw [hln]; exact hf) ((hnm f).trans hn) ht (by
            refine hs.imp ?_
            intro a b ⟨x1, x2, x3⟩
            refine ⟨?_, (hnm a).trans x2, ?_⟩
            · show a < (g.modifySym s _).syms.length
              rw [hln]; exact x1
            · show ((g.modifySym s _).sym a).name.isTok = true
              rw [hnm]; exact x3) he
        have hc : ∀ i, Grammar.obs { g.modifySym s (fun b => { b with fallback := some f }) with hasFallback := true } i =
            (g.modifySym s (fun b => { b with fallback := some f })).obs i := fun i => obs_congr rfl rfl i
        simp only [hc] at b2 b3
        have hobs : g.obs id = (g.sym s).attrs g := obs_of_name h hs1 hs2
        have hself : (g.modifySym s (fun b => { b with fallback := some f })).obs id =
            { g.obs id with fallback := some (.ident fb) } := by
          rw [hob, if_pos hs2, hobs]
          unfold Symbol.attrs
          simp [hn]
        have hother : ∀ i, i ≠ id → (g.modifySym s (fun b => { b with fallback := some f })).obs i = g.obs i := by
          intro i hi
          rw [hob, if_neg (by rw [hs2]; intro e; injection e with e; exact hi e.symm)]
        have hni : id ∉ ids := by
          intro hm
          have := b2 id hm
          rw [hself] at this
          cases this
        refine ⟨List.nodup_cons.2 ⟨hni, b1⟩, ?_, ?_⟩
        · intro i hi
          rcases List.mem_cons.1 hi with rfl | hi2
          · rw [hobs]; unfold Symbol.attrs; simp [hnone]
          · have := b2 i hi2
            rw [hother i (by rintro rfl; exact hni hi2)] at this
            exact this
        · intro i
          rw [b3]
          by_cases hi : i = id
          · subst hi
            simp [hni, hself]
          · rw [hother i hi]
            simp [hi]

theorem obs_declClass {tk : SymbolId} {c : Ident} : ∀ {ids : List Ident} {g g' : Grammar}, DInv g →
    tk < g.syms.length → (g.sym tk).name = .ident c → c.isTerminal = true → (g.sym tk).kind = .multiTerminal →
    g.declClass tk ids = .ok g' →
    ∀ i, g'.obs i = if i = c then { g.obs i with subs := (g.obs i).subs ++ ids.map SymName.ident } else g.obs i := by
  intro ids
  induction ids with
  | nil => intro g g' h ht hn hc hk he i; cases he; split <;> simp
  | cons id ids ih =>
    intro g g' h ht hn hc hk he i
    unfold Grammar.declClass at he
    split at he
    · cases he
    · rename_i hid
      have h1 := h.symbolNew (askOk_upper hid)
      have h2 := obs_symbolNew' h (askOk_upper hid) (by simp)
      rcases hs : g.symbolNew (.ident id) .terminal with ⟨g1, s⟩
      rw [hs] at he h1 h2
      simp only at he h1 h2
      obtain ⟨a1, a2, a3, a4, a5⟩ := h1
      have ht1 : tk < g1.syms.length := Nat.lt_of_lt_of_le ht a2.len
      have hn1 : (g1.sym tk).name = .ident c := by rw [a2.name tk ht]; exact hn
      have hk1 : (g1.sym tk).kind = .multiTerminal := by
        rcases a2.kind tk ht with e | ⟨_, e⟩
        · rw [← e]; exact hk
        · exact e
      have hd : DInv (g1.modifySym tk (fun b => { b with subs := b.subs ++ [s] })) := by
        refine a1.modify (fun _ => rfl) (fun _ => rfl) (fun _ => rfl) (fun _ => rfl) ?_ ?_ ?_ ?_
        · intro hl; exact a1.kinds tk hl
        · intro hl m hm
          rcases List.mem_append.1 hm with hm | hm
          · exact a1.subs tk hl m hm
          · simp only [List.mem_singleton] at hm
            subst hm
            refine ⟨a3, ?_⟩
            rw [a4]; exact isTok_upper hid
        · intro hl _; exact hk1
        · intro hl; exact a1.fb tk hl
      have hob := fun i => obs_modify a1 ht1 (f := fun b => { b with subs := b.subs ++ [s] }) (fun _ => rfl) i
      have hnm : ∀ x, ((g1.modifySym tk (fun b => { b with subs := b.subs ++ [s] })).sym x).name = (g1.sym x).name :=
        proj_modifySym Symbol.name (fun _ => rfl)
      have hkk : ∀ x, ((g1.modifySym tk (fun b => { b with subs := b.subs ++ [s] })).sym x).kind = (g1.sym x).kind :=
        proj_modifySym Symbol.kind (fun _ => rfl)
      rw [ih hd (by rw [length_modifySym]; exact ht1) ((hnm tk).trans hn1) hc ((hkk tk).trans hk1) he, hob]
      by_cases hi : i = c
      · subst hi
        rw [if_pos rfl, if_pos hn1, if_pos rfl, ← h2, obs_of_name a1 ht1 hn1]
        unfold Symbol.attrs
        simp [a4]
      · rw [if_neg hi, if_neg (by rw [hn1]; intro e; injection e with e; exact hi e.symm), if_neg hi, h2]

theorem obs_declElem {g g' : Grammar} {e : RhsElem} {x : RhsSym} (h : DInv g)
    (he : g.declElem e = .ok (g', x)) (i : Ident) : g'.obs i = g.obs i := by
  unfold Grammar.declElem at he
  split at he
  · rename_i tok htok
    have hnst : ∀ nst, (if tok.isTerminal then some SymKind.terminal
      else if tok.isNonTerminal then some SymKind.nonTerminal else none) = some nst →
        askOk (.ident tok) nst = true ∧ nst ≠ .multiTerminal := by
      intro nst hh
      split at hh
      · rename_i ht; cases hh; exact ⟨askOk_upper (by simp [ht]), by simp⟩
      · split at hh
        · rename_i ht; cases hh; exact ⟨askOk_lower (by simp [ht]), by simp⟩
        · cases hh
    rcases hk : (if tok.isTerminal then some SymKind.terminal
      else if tok.isNonTerminal then some SymKind.nonTerminal else none) with _ | nst
    · simp only [hk] at he; cases he
    · simp only [hk] at he
      obtain ⟨ha, hm⟩ := hnst nst hk
      have h1 := h.symbolNew ha
      have h2 := obs_symbolNew' h ha hm i
      rcases hs : g.symbolNew (.ident tok) nst with ⟨g1, s⟩
      rw [hs] at he h1 h2
      simp only at he h1 h2
      split at he
      · split at he
        · cases he; exact h2
        · rename_i hlk
          have hn : (g1.sym s).name.isTok = true ∨ (g1.sym s).name.isNt = true := by
            rw [h1.2.2.2.1]
            cases tok <;> simp_all [SymName.isTok, SymName.isNt, Ident.isTerminal, Ident.isNonTerminal]
          obtain ⟨b1, b2, b3⟩ := h1.1.addOpt h1.2.2.1 hn hlk
          rw [b1] at he
          simp only at he
          cases he
          refine (obs_congr (g := g1.pushSym { name := .opt g1.optionals.length, kind := .nonTerminal }) rfl rfl i).trans ?_
          rw [obs_push h1.1 (.inl (by intro i; simp)), if_neg (by simp), h2]
      · cases he; exact h2
  · have h1 := h.symbolNew (name := .anon) (k := .multiTerminal) rfl
    have h2 := obs_symbolNew h (n := .anon) (k := .multiTerminal) rfl i
    rcases hs : g.symbolNew .anon .multiTerminal with ⟨g1, mt⟩
    rw [hs] at he h1 h2
    simp only at he h1 h2
    split at he
    · cases he
    · rename_i g2 ss hdt
      cases he
      have h3 := obs_declTokens h1.1 hdt i
      have h4 := h1.1.declTokens hdt
      rw [obs_modify h4.1 (f := fun b => { b with subs := b.subs ++ ss }) (Nat.lt_of_lt_of_le h1.2.2.1 h4.2.1.len) (fun _ => rfl), if_neg (by
        rw [h4.2.1.name _ h1.2.2.1, h1.2.2.2.1]; simp), h3, h2]
      simp

theorem obs_declRhs : ∀ {es : List RhsElem} {g g' : Grammar} {xs : List RhsSym}, DInv g →
    g.declRhs es = .ok (g', xs) → ∀ i, g'.obs i = g.obs i := by
  intro es
  induction es with
  | nil => intro g g' xs h he i; cases he; rfl
  | cons e es ih =>
    intro g g' xs h he i
    unfold Grammar.declRhs at he
    split at he
    · cases he
    · rename_i g1 x h1
      split at he
      · cases he
      · rename_i g2 xs2 h2
        cases he
        rw [ih (h.declElem h1).1 h2, obs_declElem h h1]

theorem obs_createRule {g : Grammar} {l : SymbolId} {rs : List RhsSym} {c : Option Code} {p : Option SymbolId} (i : Ident) :
    (g.createRule l rs c p).obs i = g.obs i := by
  unfold Grammar.createRule
  simp only
  rw [obs_modify_same (f := fun b => { b with rules := b.rules ++ [g.rules.length] }) (fun _ => rfl) (fun _ => rfl)]
  exact obs_congr rfl rfl i

/-- Effect of a directive on the attributes of a name; `n` is the precedence counter. -/
def Attrs.step (n : Nat) (i : Ident) (a : Attrs) : Decl → Attrs
  | .type at' j (some t) => if j = i then { a with dataType := some t, attributes := at' } else a
  | .type at' j none => if j = i then { a with attributes := at' } else a
  | .assoc s ids => if i ∈ ids then { a with precedence := some ⟨n + 1, s⟩ } else a
  | .fallback fb ids => if i ∈ ids then { a with fallback := some (.ident fb) } else a
  | .tokenClass tk ids => if i = tk then { a with multi := true, subs := a.subs ++ ids.map SymName.ident } else a
  | _ => a

/-- What must hold before a directive -/
def Attrs.pre (o : Ident → Attrs) : Decl → Prop
  | .type _ j _ => (o j).dataType = none
  | .assoc _ ids => ids.Nodup ∧ ∀ i ∈ ids, (o i).precedence = none
  | .fallback _ ids => ids.Nodup ∧ ∀ i ∈ ids, (o i).fallback = none
  | _ => True

theorem obs_parseOneDecl {g g' : Grammar} {d : Decl} (h : DInv g) (he : g.parseOneDecl d = .ok g') :
    Attrs.pre g.obs d ∧ ∀ i, g'.obs i = (g.obs i).step g.prec i d := by
  unfold Grammar.parseOneDecl at he
  split at he
  case h_1 => cases he; exact ⟨trivial, fun i => rfl⟩
  case h_2 => cases he; exact ⟨trivial, fun i => rfl⟩
  case h_3 => cases he; exact ⟨trivial, fun i => rfl⟩
  case h_4 => split at he <;> cases he; exact ⟨trivial, fun i => obs_congr rfl rfl i⟩
  case h_5 => split at he <;> cases he; exact ⟨trivial, fun i => obs_congr rfl rfl i⟩
  case h_6 => split at he <;> cases he; exact ⟨trivial, fun i => obs_congr rfl rfl i⟩
  case h_7 attrs id ty =>
    have hnst : ∀ nst, (if id.isTerminal then Except.ok SymKind.terminal
      else if id.isNonTerminal then
        if attrs then .error .attributesOnNonTerminal else .ok .nonTerminal
      else .error .badSymbol : Except GErr SymKind) = .ok nst → askOk (.ident id) nst = true ∧ nst ≠ .multiTerminal := by
      intro nst hh
      split at hh
      · rename_i ht; cases hh; exact ⟨askOk_upper (by simp [ht]), by simp⟩
      · split at hh
        · rename_i ht
          split at hh
          · cases hh
          · cases hh; exact ⟨askOk_lower (by simp [ht]), by simp⟩
        · cases hh
    rcases hk : (if id.isTerminal then Except.ok SymKind.terminal
      else if id.isNonTerminal then
        if attrs then .error .attributesOnNonTerminal else .ok .nonTerminal
      else .error .badSymbol : Except GErr SymKind) with _ | nst
    · simp only [hk] at he; cases he
    · simp only [hk] at he
      obtain ⟨ha, hm⟩ := hnst nst hk
      have h1 := h.symbolNew ha
      have h2 := obs_symbolNew' h ha hm
      rcases hs : g.symbolNew (.ident id) nst with ⟨g1, s⟩
      rw [hs] at he h1 h2
      simp only at he h1 h2
      obtain ⟨a1, a2, a3, a4, a5⟩ := h1
      split at he
      · cases he
      · rename_i hdt
        cases he
        have hobs : g.obs id = (g1.sym s).attrs g1 := by rw [← h2, obs_of_name a1 a3 a4]
        have hnone : (g1.sym s).dataType = none := by simpa using hdt
        refine ⟨?_, ?_⟩
        · show (g.obs id).dataType = none
          rw [hobs]; exact hnone
        · intro i
          rw [obs_modify a1 a3 (f := fun b => { b with dataType := ty, attributes := attrs }) (fun _ => rfl), a4, h2]
          by_cases hi : id = i
          · subst hi
            rw [if_pos rfl, hobs]
            cases ty with
            | none => unfold Attrs.step Symbol.attrs; simp [hnone]
            | some t => unfold Attrs.step Symbol.attrs; simp
          · rw [if_neg (by intro e; injection e with e; exact hi e)]
            cases ty with
            | none => simp [Attrs.step, hi]
            | some t => simp [Attrs.step, hi]
  case h_8 a ids =>
    have hd : DInv { g with prec := g.prec + 1 } := h.congr rfl rfl rfl rfl rfl rfl rfl
    obtain ⟨b1, b2, b3⟩ := obs_declAssoc hd he
    exact ⟨⟨b1, b2⟩, b3⟩
  case h_9 => split at he <;> cases he; exact ⟨trivial, fun i => obs_congr rfl rfl i⟩
  case h_10 => split at he <;> cases he; exact ⟨trivial, fun i => obs_congr rfl rfl i⟩
  case h_11 => split at he <;> cases he; exact ⟨trivial, fun i => obs_congr rfl rfl i⟩
  case h_12 id =>
    split at he
    · cases he
    · split at he
      · cases he
      · rename_i hid
        have h2 := obs_symbolNew' h (askOk_lower hid) (by simp)
        rcases hs : g.symbolNew (.ident id) .nonTerminal with ⟨g1, s⟩
        rw [hs] at he h2
        simp only at he h2
        cases he
        exact ⟨trivial, fun i => (obs_congr rfl rfl i).trans (h2 i)⟩
  case h_13 fb ids =>
    split at he
    · cases he
    · rename_i g1 ss h1
      split at he
      · cases he
      · rename_i hid
        have t1 := h.declTokens h1
        have t2 := obs_declTokens h h1
        have h2 := t1.1.symbolNew (askOk_upper hid)
        have h3 := obs_symbolNew' t1.1 (askOk_upper hid) (by simp)
        rcases hs : g1.symbolNew (.ident fb) .terminal with ⟨g2, f⟩
        rw [hs] at he h2 h3
        simp only at he h2 h3
        obtain ⟨a1, a2, a3, a4, a5⟩ := h2
        split at he
        · cases he
        · have hfa : List.Forall₂ (fun s id => s < g2.syms.length ∧ (g2.sym s).name = .ident id ∧
              (g2.sym s).name.isTok = true) ss ids := by
            refine t1.2.2.2.imp ?_
            intro a b ⟨x1, x2, x3⟩
            rw [a2.name a x1]
            exact ⟨Nat.lt_of_lt_of_le x1 a2.len, x2, x3⟩
          obtain ⟨b1, b2, b3⟩ := obs_setFallbacks a1 a3 a4 (by simpa using hid) hfa he
          have hg : ∀ i, g2.obs i = g.obs i := fun i => (h3 i).trans (t2 i)
          refine ⟨⟨b1, fun i hi => by rw [← hg]; exact b2 i hi⟩, ?_⟩
          intro i
          rw [b3, hg]
          rfl
  case h_14 id =>
    split at he
    · cases he
    · split at he
      · cases he
      · rename_i hid
        have h2 := obs_symbolNew' h (askOk_upper hid) (by simp)
        rcases hs : g.symbolNew (.ident id) .terminal with ⟨g1, s⟩
        rw [hs] at he h2
        simp only at he h2
        cases he
        exact ⟨trivial, fun i => (obs_congr rfl rfl i).trans (h2 i)⟩
  case h_15 tk ids =>
    split at he
    · cases he
    · rename_i hid
      have hask : askOk (.ident tk) .multiTerminal = true := by
        cases tk <;> simp_all [Ident.isTerminal, askOk]
      have h1 := h.symbolNew hask
      have h2 := obs_symbolNew h hask
      rcases hs : g.symbolNew (.ident tk) .multiTerminal with ⟨g1, s⟩
      rw [hs] at he h1 h2
      simp only at he h1 h2
      obtain ⟨a1, a2, a3, a4, a5⟩ := h1
      have hkind : (g1.sym s).kind = .multiTerminal := by
        have := h2 tk
        rw [obs_of_name a1 a3 a4] at this
        have := congrArg Attrs.multi this
        simpa [Symbol.attrs] using this
      refine ⟨trivial, ?_⟩
      intro i
      rw [obs_declClass a1 a3 a4 (by simpa using hid) hkind he, h2]
      by_cases hi : i = tk
      · subst hi
        unfold Attrs.step
        simp
      · have : ¬ tk = i := fun e => hi e.symm
        unfold Attrs.step
        simp [hi, this]
  case h_16 => split at he <;> cases he; exact ⟨trivial, fun i => obs_congr rfl rfl i⟩
  case h_17 => split at he <;> cases he; exact ⟨trivial, fun i => obs_congr rfl rfl i⟩
  case h_18 => split at he <;> cases he; exact ⟨trivial, fun i => obs_congr rfl rfl i⟩
  case h_19 => split at he <;> cases he; exact ⟨trivial, fun i => obs_congr rfl rfl i⟩
  case h_20 lhs rhs action prec =>
    split at he
    · cases he
    · rename_i hid
      have h1 := h.symbolNew (askOk_lower hid)
      have h2 := obs_symbolNew' h (askOk_lower hid) (by simp)
      rcases hs : g.symbolNew (.ident lhs) .nonTerminal with ⟨g1, l⟩
      rw [hs] at he h1 h2
      simp only at he h1 h2
      split at he
      · cases he
      · rename_i g2 rs hrs
        have h3 := h1.1.declRhs hrs
        have h4 := obs_declRhs h1.1 hrs
        split at he
        · cases he
          exact ⟨trivial, fun i => (obs_createRule i).trans ((h4 i).trans (h2 i))⟩
        · rename_i id
          split at he
          · cases he
          · rename_i hid2
            have h5 := obs_symbolNew' h3.1 (askOk_upper hid2) (by simp)
            rcases hs2 : g2.symbolNew (.ident id) .terminal with ⟨g3, ps⟩
            rw [hs2] at he h5
            simp only at he h5
            cases he
            exact ⟨trivial, fun i => (obs_createRule i).trans ((h5 i).trans ((h4 i).trans (h2 i)))⟩

end Pomelo
