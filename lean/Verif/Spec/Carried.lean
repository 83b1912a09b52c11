import Verif.Spec.Run
/-!
# Values seen through a function

What becomes of tokens, logs and parsers when every value, the extra argument and every error is replaced by its image; and user code that works on the images as
other user code does on the originals.
-/

namespace Pomelo.Spec

variable {V V' X X' E E' α α' : Type}

def _root_.Pomelo.Tok.image (f : V → V') (k : Tok V) : Tok V' := ⟨k.major, f k.val⟩

def _root_.Pomelo.Minor.image (f : V → V') (m : Minor V) : Minor V' := ⟨m.tag, f m.val⟩

def _root_.Pomelo.Entry.image (f : V → V') (e : Entry V) : Entry V' := ⟨e.state, e.major, e.minor.image f⟩

def _root_.Pomelo.Status.image (f : V → V') : Status V → Status V'
  | .normal => .normal
  | .failed => .failed
  | .accepted v => .accepted (f v)

def _root_.Pomelo.Event.image (f : V → V') : Event V → Event V'
  | .reduce n vs => .reduce n (vs.map f)
  | .syntaxError tok ex => .syntaxError (tok.map (Tok.image f)) ex
  | .parseFail => .parseFail
  | .stackOverflow tok => .stackOverflow (tok.map (Tok.image f))
  | .shift n => .shift n
  | .discard n => .discard n

def _root_.Pomelo.Parser.image (f : V → V') (g : X → X') (p : Parser V X) : Parser V' X' :=
  ⟨p.errorCount, p.stack.map (Entry.image f), g p.extra, p.status.image f, p.trace.map (Event.image f)⟩

def _root_.Pomelo.Res.image (f : V → V') (g : X → X') (h : E → E') (a : α → α') : Res V X E α → Res V' X' E' α'
  | .ok p x => .ok (p.image f g) (a x)
  | .err p e => .err (p.image f g) (h e)
  | .panic w => .panic w

/-- What a block returns -/
def returned (f : V → V') (g : X → X') (h : E → E') : Except E V × X → Except E' V' × X'
  | (.ok v, x) => (.ok (f v), g x)
  | (.error e, x) => (.error (h e), g x)

/-- `sem'` does with the images what `sem` does with the originals. -/
structure Carries (f : V → V') (g : X → X') (h : E → E') (sem : Sem V X E) (sem' : Sem V' X' E') : Prop where
  unit : sem'.unit = f sem.unit
  none : sem'.none = f sem.none
  some : ∀ v, sem'.some (f v) = f (sem.some v)
  user : ∀ n args x, sem'.user n (args.map f) (g x) = returned f g h (sem.user n args x)
  syntaxError : ∀ tok ex x, sem'.syntaxError (tok.map (Tok.image f)) ex (g x) = returned f g h (sem.syntaxError tok ex x)
  parseFail : ∀ x, sem'.parseFail (g x) = (h (sem.parseFail x).1, g (sem.parseFail x).2)
  stackOverflow : ∀ tok x, sem'.stackOverflow (tok.map (Tok.image f)) (g x) = (h (sem.stackOverflow tok x).1, g (sem.stackOverflow tok x).2)

/-- No rule block and no `%syntax_error` fails. -/
structure NeverFails (sem : Sem V X E) : Prop where
  user : ∀ n args x, ∃ v, (sem.user n args x).1 = .ok v
  syntaxError : ∀ tok ex x, ∃ v, (sem.syntaxError tok ex x).1 = .ok v

end Pomelo.Spec
