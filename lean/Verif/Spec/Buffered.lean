import Verif.Model.Buffered
import Verif.Spec.History

/-! # What a loader may be shown by a `BufRead` -/

namespace Fbx
namespace Spec
variable {α : Type}

/-- The rule of `BufRead::consume`: `n` must not be more than what the last `fill_buf` showed, less what was consumed
since. `seen` is that number. -/
def Polite (seen : Nat) : BufCons α → Prop
  | .done _ => True
  | .read _ k => ∀ x, Polite 0 (k x)
  | .fill k => (∀ e, Polite 0 (k (.error e))) ∧ ∀ bs, Polite bs.length (k (.ok bs))
  | .consume n k => n ≤ seen ∧ Polite (seen - n) k

/-- `Served faults final c data taken r`: a program which finds `data` (the bytes of the attribute) in its stream can
take `taken` of it and answer `r`. It is never shown anything else; it is shown something as long as anything is left;
and after the end it sees the end (`final = none`) or the error which is there. `faults` are the errors which the device
reports now and then. -/
inductive Served (faults : IoErr → Prop) (final : Option IoErr) : BufCons α → Bytes → Bytes → Except PErr α → Prop where
  | done {r data} : Served faults final (.done r) data [] r
  | read {n k bs left taken r} : bs.length ≤ n → (bs = [] → n = 0 ∨ left = [] ∧ final = none) →
      Served faults final (k (.ok bs)) left taken r → Served faults final (.read n k) (bs ++ left) (bs ++ taken) r
  | readErr {n k e data taken r} : n ≠ 0 → faults e ∨ data = [] ∧ final = some e →
      Served faults final (k (.error e)) data taken r → Served faults final (.read n k) data taken r
  | fill {k bs more taken r} : (bs = [] → more = [] ∧ final = none) →
      Served faults final (k (.ok bs)) (bs ++ more) taken r → Served faults final (.fill k) (bs ++ more) taken r
  | fillErr {k e data taken r} : faults e ∨ data = [] ∧ final = some e →
      Served faults final (k (.error e)) data taken r → Served faults final (.fill k) data taken r
  | consume {k bs left taken r} : Served faults final k left taken r →
      Served faults final (.consume bs.length k) (bs ++ left) (bs ++ taken) r

end Spec

variable {α : Type}

/-- A call of a client which may have loaders over a `BufRead`. -/
inductive BufCall (α : Type) where
  | plain (c : Call α)
  /-- `Attributes::load_next_buffered`, with the device in the given setting -/
  | load (w : Setting) (l : BufLoader α)

/-- One call, as `Client.call`. -/
def Client.callBuf (Z : Zlib) (s : Client) : BufCall α → Option (Outcome α × Client)
  | .plain c => s.call Z c
  | .load w l => match s.attrs with
    | none => none
    | some at_ => match AP.loadBuf Z w l ⟨s.parser, at_⟩ with
      | (.ok (some v), a) => some (.value v, ⟨a.parser, some a.attrs⟩)
      | (.ok none, a) => some (.noValue, ⟨a.parser, some a.attrs⟩)
      | (.err e, a) => some (.err e, ⟨a.parser, some a.attrs⟩)
      | (.panic x, a) => some (.panic x, ⟨a.parser, some a.attrs⟩)

/-- As `Runs`. -/
inductive BufRuns (Z : Zlib) (s : Client) : List (BufCall α × Outcome α) → Client → Prop where
  | nil : BufRuns Z s [] s
  | snoc {h : List (BufCall α × Outcome α)} {t u : Client} {c : BufCall α} {o : Outcome α} : BufRuns Z s h t →
      (∀ c' x, (c', .panic x) ∉ h) → t.callBuf Z c = some (o, u) → BufRuns Z s (h ++ [(c, o)]) u

namespace Spec

/-- The hooks of the loader keep the rule of `consume`. -/
def BufCall.Polite : BufCall α → Prop
  | .plain _ => True
  | .load _ l => (∀ n, Spec.Polite 0 (l.binary n)) ∧ ∀ n, Spec.Polite 0 (l.string n)

/-- `c'` is `c`, or the same call with other hooks for strings and binary data, which only use `read`. -/
def BufCall.Alike : BufCall α → Call α → Prop
  | .plain c, c' => c' = c
  | .load _ l, c' => ∃ b s, c' = .load true { l.base with binaryBuf := b, stringBuf := s }

/-- The same calls in that sense, with the same outcomes. -/
def BufCall.AlikeAll : List (BufCall α × Outcome α) → History α → Prop
  | [], [] => True
  | x :: xs, y :: ys => BufCall.Alike x.1 y.1 ∧ y.2 = x.2 ∧ BufCall.AlikeAll xs ys
  | _, _ => False

end Spec
end Fbx
