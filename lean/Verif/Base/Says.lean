import Verif.Base.Post

/- Partial-correctness reasoning about the messages a computation prints. -/
namespace KTL

/-- Whenever `c` ends normally, it has printed only messages with `Q`. Proof helper, not code. -/
def Says {α} (Q : Msg → Prop) (c : M α) : Prop :=
  ∀ w a w', c w = .ok a w' → ∃ l, w'.out = w.out ++ l ∧ ∀ m ∈ l, Q m

namespace Says

variable {α β : Type} {Q : Msg → Prop}

theorem of_eq {c : M α} (h : ∀ w a w', c w = .ok a w' → w'.out = w.out) : Says Q c :=
  fun w a w' e => ⟨[], by rw [h w a w' e, List.append_nil], fun _ h => nomatch h⟩

theorem pure (a : α) : Says Q (Pure.pure a) := of_eq fun w a' w' e => by cases e; rfl

theorem ub : Says Q (M.ub : M α) := of_eq fun w a' w' e => by cases e

theorem oom : Says Q (M.oom : M α) := of_eq fun w a' w' e => by cases e

theorem nullDeref : Says Q (M.nullDeref : M α) := of_eq fun w a' w' e => by
  unfold M.nullDeref at e
  split at e <;> cases e

theorem bind {c : M α} {f : α → M β} (h : Says Q c) (hf : ∀ a, Says Q (f a)) : Says Q (c >>= f) := by
  intro w b w' e
  obtain ⟨a, w1, h1, h2⟩ := bind_ok e
  obtain ⟨l1, e1, q1⟩ := h w a w1 h1
  obtain ⟨l2, e2, q2⟩ := hf a w1 b w' h2
  refine ⟨l1 ++ l2, by rw [e2, e1, List.append_assoc], fun m hm => ?_⟩
  rcases List.mem_append.1 hm with hm | hm
  · exact q1 m hm
  · exact q2 m hm

theorem ite {c : Prop} [Decidable c] {x y : M α} (h1 : Says Q x) (h2 : Says Q y) : Says Q (if c then x else y) := by
  split
  · exact h1
  · exact h2

/-- an `if` in the middle, as `do` blocks unfold to -/
theorem iteBind {c : Prop} [Decidable c] {x y : M α} {f : α → M β} (h1 : Says Q x) (h2 : Says Q y) (hf : ∀ a, Says Q (f a)) :
    Says Q (if c then x >>= f else y >>= f) := ite (bind h1 hf) (bind h2 hf)

theorem ifThen {c : Prop} [Decidable c] {x : M Unit} (h : c → Says Q x) : Says Q (M.ifThen c x) := by
  unfold M.ifThen
  split
  · rename_i hc; exact h hc
  · exact Says.pure _

theorem print {m : Msg} (h : Q m) : Says Q (M.print m) := by
  intro w a w' e
  cases e
  exact ⟨[m], rfl, fun x hx => by rw [List.mem_singleton.1 hx]; exact h⟩

theorem load (a : Nat) : Says Q (M.load a) := of_eq fun w x w' e => by
  unfold M.load at e
  split at e <;> cases e
  rfl

theorem store (a : Nat) (v : UInt8) : Says Q (M.store a v) := of_eq fun w x w' e => by
  unfold M.store at e
  split at e <;> cases e
  rfl

theorem event (v : Ev) : Says Q (M.event v) := of_eq fun w x w' e => by cases e; rfl

theorem readBytes (p n : Nat) : Says Q (M.readBytes p n) := by
  induction n generalizing p with
  | zero => exact Says.pure _
  | succ n ih => exact Says.bind (load _) fun _ => Says.bind (ih _) fun _ => Says.pure _

theorem writeBytes (p : Nat) (bs : List UInt8) : Says Q (M.writeBytes p bs) := by
  induction bs generalizing p with
  | nil => exact Says.pure _
  | cons b bs ih => exact Says.bind (store _ _) fun _ => ih _

theorem readPtr (p : Nat) : Says Q (M.readPtr p) := Says.bind (readBytes _ _) fun _ => Says.pure _

theorem writePtr (p v : Nat) : Says Q (M.writePtr p v) := writeBytes _ _

theorem cMalloc (sys : Sys) (n : Nat) : Says Q (KTL.cMalloc sys n) := of_eq fun w x w' e => by
  unfold KTL.cMalloc at e
  split at e <;> cases e <;> rfl

theorem cFree (p : Nat) : Says Q (KTL.cFree p) := of_eq fun w x w' e => by
  unfold KTL.cFree at e
  split at e
  · cases e; rfl
  · split at e
    · cases e
    · split at e <;> cases e
      rfl

end Says

end KTL
