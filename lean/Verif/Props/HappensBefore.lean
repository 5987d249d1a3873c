import Verif.Conc.Order
import Verif.Props.AtomicShared

/- C66: the deletion of an `atomic_shared` block happens after every other access to it. -/
namespace KTL

/-- What an access does to the blocks, written independently of `AThread.step`. -/
def Blocks.perform (B : Blocks) : Option Acc → Blocks
  | none => B
  | some (.create b) => ⟨fun x => if x = b then some 1 else B.counts x, B.next + 1, B.log ++ [.create b]⟩
  | some (.add b) => { B with counts := fun x => if x = b then (B.counts b).map (· + 1) else B.counts x }
  | some (.sub b) => { B with counts := fun x => if x = b then (B.counts b).map (· - 1) else B.counts x }
  | some (.touch b) => { B with log := B.log ++ [.use b] }
  | some (.delete b) => ⟨fun x => if x = b then none else B.counts x, B.next, B.log ++ [.delete b]⟩

namespace AThread
open Shared (one count_at count_set)

/-- what a step with access `a` does to the references (helper) -/
structure Effect (B : Blocks) (th : AThread) (a : Option Acc) (B' : Blocks) (th' : AThread) : Prop where
  perform : B' = B.perform a
  keep : ∀ b, a ≠ some (.sub b) → th.refs b ≤ th'.refs b
  gain : ∀ b, th.refs b < th'.refs b → a = some (.add b) ∨ a = some (.create b)
  last : ∀ b, 0 < th'.pend b → a = some (.sub b) ∧ B.counts b = some 1
  fresh : ∀ b, a = some (.create b) → b = B.next
  pending : ∀ b, a = some (.delete b) → 0 < th.pend b
  held : ∀ b, a = some (.add b) ∨ a = some (.sub b) ∨ a = some (.touch b) → 0 < th.refs b
  own : ∀ b, a = some (.create b) → 0 < th'.refs b

theorem Effect.none {B : Blocks} {th th' : AThread} (h : ∀ b, th'.refs b = th.refs b) (h' : ∀ b, th'.pend b = 0) :
    Effect B th .none B th' :=
  ⟨rfl, fun b _ => Nat.le_of_eq (h b).symm, fun b hb => by rw [h b] at hb; omega, fun b hb => by rw [h' b] at hb; omega,
    fun _ h => (by cases h), fun _ h => (by cases h), fun _ h => (by rcases h with h | h | h <;> cases h), fun _ h => by cases h⟩

theorem release_effect {B B' : Blocks} {hs : List (Option Nat)} {th' : AThread} {i : Nat} {k : Pc}
    (hk : skip hs k = some i) (hp : ∀ b, pend ⟨hs, k⟩ b = 0) (h : release B ⟨hs, .idle⟩ i k = some (B', th')) :
    Effect B ⟨hs, .idle⟩ ((hs[i]?).join.map .sub) B' th' := by
  have hr : ∀ b, refs ⟨hs, .idle⟩ b = hs.count (some b) := fun _ => rfl
  have hrk : ∀ b, refs ⟨hs, k⟩ b = (hs.eraseIdx i).count (some b) := by
    intro b; simp only [refs]; rw [hk]
  simp only [release] at h
  cases hi : hs[i]? with
  | none =>
    rw [hi] at h; cases h
    exact Effect.none (fun _ => rfl) (fun _ => rfl)
  | some p =>
    rw [hi] at h
    have hcnt := fun b => count_at hi b
    cases p with
    | none =>
      simp only [Blocks.fetchSub] at h; cases h
      refine Effect.none (fun b => ?_) hp
      rw [hr, hrk, hcnt b]; simp [one]
    | some a =>
      have hone : ∀ b, a ≠ b → one (some a) b = 0 := fun b hb => by simp [one, hb]
      have hone' : one (some a) a = 1 := by simp [one]
      show Effect B _ (some (.sub a)) B' th'
      simp only [Blocks.fetchSub] at h
      cases hc : B.counts a with
      | none => rw [hc] at h; cases h
      | some c =>
        rw [hc] at h
        cases c with
        | zero => cases h
        | succ c =>
          have hset : B.setCount a (some c) = B.perform (some (.sub a)) := by
            simp [Blocks.perform, Blocks.setCount, hc]
          have key : ∀ b, refs ⟨hs, k⟩ b + one (some a) b = refs ⟨hs, .idle⟩ b := by
            intro b; rw [hr, hrk, hcnt b]; omega
          have keep : ∀ b, (some (Acc.sub a)) ≠ some (.sub b) → refs ⟨hs, .idle⟩ b ≤ refs ⟨hs, k⟩ b := by
            intro b hb
            have := key b
            rw [hone b (fun e => hb (by rw [e]))] at this; omega
          have gain : ∀ b, ¬ refs ⟨hs, .idle⟩ b < refs ⟨hs, k⟩ b := by
            intro b; have := key b; omega
          have held : ∀ b, some (Acc.sub a) = some (.add b) ∨ some (Acc.sub a) = some (.sub b) ∨ some (Acc.sub a) = some (.touch b) →
              0 < refs ⟨hs, .idle⟩ b := by
            intro b hb
            rcases hb with hb | hb | hb <;> cases hb
            have := key a; omega
          cases c with
          | zero =>
            cases h
            refine ⟨hset, keep, fun b hb => absurd hb (gain b), fun b hb => ?_, fun _ h => (by cases h), fun _ h => (by cases h), held, fun _ h => by cases h⟩
            have hb : 0 < one (some a) b := hb
            by_cases e : a = b
            · subst e; exact ⟨rfl, hc⟩
            · rw [hone b e] at hb; omega
          | succ c =>
            cases h
            exact ⟨hset, keep, fun b hb => absurd hb (gain b), fun b hb => by rw [hp] at hb; omega, fun _ h => (by cases h),
              fun _ h => (by cases h), held, fun _ h => by cases h⟩

theorem touch_effect {B B1 : Blocks} {hs : List (Option Nat)} {pc pc' : Pc} {b : Nat} (hB : B.touch b = some B1)
    (h0 : ∀ a, refs ⟨hs, pc'⟩ a = refs ⟨hs, pc⟩ a) (h1 : ∀ a, pend ⟨hs, pc'⟩ a = 0) (hr : 0 < refs ⟨hs, pc⟩ b) :
    Effect B ⟨hs, pc⟩ (some (.touch b)) B1 ⟨hs, pc'⟩ := by
  simp only [Blocks.touch] at hB
  cases hc : B.counts b with
  | none => rw [hc] at hB; cases hB
  | some c =>
    rw [hc] at hB; cases hB
    refine ⟨rfl, fun a _ => Nat.le_of_eq (h0 a).symm, fun a ha => by rw [h0] at ha; omega, fun a ha => by rw [h1] at ha; omega,
      fun _ h => (by cases h), fun _ h => (by cases h), fun a ha => ?_, fun _ h => by cases h⟩
    rcases ha with ha | ha | ha <;> cases ha
    exact hr

theorem add_effect {B B1 : Blocks} {th th' : AThread} {p : Option Nat} (hB : B.fetchAdd p = some B1)
    (h0 : ∀ a, refs th' a = refs th a + one p a) (h1 : ∀ a, pend th' a = 0) (hr : ∀ b, p = some b → 0 < refs th b) :
    Effect B th (p.map .add) B1 th' := by
  cases p with
  | none =>
    cases hB
    exact Effect.none (fun b => by rw [h0]; simp [one]) h1
  | some b =>
    simp only [Blocks.fetchAdd] at hB
    cases hc : B.counts b with
    | none => rw [hc] at hB; cases hB
    | some c =>
      rw [hc] at hB; cases hB
      refine ⟨?_, fun a _ => by rw [h0]; omega, fun a ha => ?_, fun a ha => by rw [h1] at ha; omega, fun _ h => (by cases h),
        fun _ h => (by cases h), fun a ha => ?_, fun _ h => by cases h⟩
      · simp [Blocks.perform, Blocks.setCount, hc]
      · rw [h0] at ha
        by_cases e : b = a
        · subst e; exact Or.inl rfl
        · have : one (some b) a = 0 := by simp [one, e]
          omega
      · rcases ha with ha | ha | ha <;> cases ha
        exact hr _ rfl

theorem step_effect {B B' : Blocks} {th th' : AThread} {o : AOp} (hok : th.Ok) (h : th.step B o = some (B', th')) :
    Effect B th (th.acc B o) B' th' := by
  obtain ⟨hs, pc⟩ := th
  cases pc with
  | idle =>
    have hr : ∀ b, refs ⟨hs, .idle⟩ b = hs.count (some b) := fun _ => rfl
    cases o with
    | create =>
      cases h
      have key : ∀ b, refs ⟨hs ++ [some B.next], .idle⟩ b = refs ⟨hs, .idle⟩ b + one (some B.next) b := by
        intro b
        show List.count (some b) (hs ++ [some B.next]) = hs.count (some b) + _
        rw [List.count_append, List.count_singleton]
        by_cases hb : B.next = b <;> simp [hb, one]
      refine ⟨rfl, fun b _ => by rw [key]; omega, fun b hb => ?_, fun b hb => absurd hb (Nat.lt_irrefl 0), fun b hb => ?_,
        fun _ h => (by cases h), fun _ h => (by rcases h with h | h | h <;> cases h), fun b hb => ?_⟩
      · rw [key] at hb
        by_cases e : B.next = b
        · subst e; exact Or.inr rfl
        · have : one (some B.next) b = 0 := by simp [one, e]
          omega
      · cases hb; rfl
      · cases hb; rw [key]; simp [one]
    | copy i =>
      simp only [step] at h
      show Effect B _ none B' th'
      cases hi : hs[i]? with
      | none => rw [hi] at h; cases h; exact Effect.none (fun _ => rfl) (fun _ => rfl)
      | some p =>
        rw [hi] at h; cases h
        exact Effect.none (fun b => by simp only [refs, skip, eraseIdx_last]) (fun _ => rfl)
    | move i =>
      simp only [step] at h
      show Effect B _ none B' th'
      cases hi : hs[i]? with
      | none => rw [hi] at h; cases h; exact Effect.none (fun _ => rfl) (fun _ => rfl)
      | some p =>
        rw [hi] at h; cases h
        refine Effect.none (fun b => ?_) (fun _ => rfl)
        show List.count (some b) (hs.set i none ++ [p]) = hs.count (some b)
        rw [List.count_append, List.count_singleton, count_set hi]
        have : one p b ≤ hs.count (some b) := by rw [count_at hi]; omega
        have hn : one none b = 0 := by simp [one]
        have : (if (p == some b) = true then 1 else 0) = one p b := by
          by_cases hp : p = some b <;> simp [one, hp]
        omega
    | assign i j =>
      simp only [step] at h
      by_cases hj : j < hs.length
      · rw [if_pos hj] at h
        have := release_effect (k := .assigning i j) rfl (fun _ => rfl) h
        show Effect B _ (if j < hs.length then _ else none) B' th'
        rw [if_pos hj]; exact this
      · rw [if_neg hj] at h; cases h
        show Effect B _ (if j < hs.length then _ else none) B _
        rw [if_neg hj]; exact Effect.none (fun _ => rfl) (fun _ => rfl)
    | moveAssign i j =>
      simp only [step] at h
      by_cases hj : j < hs.length
      · rw [if_pos hj] at h
        have := release_effect (k := .moving i j) rfl (fun _ => rfl) h
        show Effect B _ (if j < hs.length then _ else none) B' th'
        rw [if_pos hj]; exact this
      · rw [if_neg hj] at h; cases h
        show Effect B _ (if j < hs.length then _ else none) B _
        rw [if_neg hj]; exact Effect.none (fun _ => rfl) (fun _ => rfl)
    | drop i => exact release_effect (k := .dropping i) rfl (fun _ => rfl) h
    | use i =>
      simp only [step] at h
      show Effect B _ ((hs[i]?).join.map .touch) B' th'
      cases hi : hs[i]? with
      | none => rw [hi] at h; cases h; exact Effect.none (fun _ => rfl) (fun _ => rfl)
      | some p =>
        rw [hi] at h
        cases p with
        | none => cases h; exact Effect.none (fun _ => rfl) (fun _ => rfl)
        | some b =>
          simp only at h
          cases hB : B.touch b with
          | none => rw [hB] at h; cases h
          | some B1 =>
            rw [hB] at h; cases h
            exact touch_effect hB (fun _ => rfl) (fun _ => rfl) (count_pos hi)
    | send i u => cases h; exact Effect.none (fun _ => rfl) (fun _ => rfl)
  | copied =>
    obtain ⟨l, p, e, hm⟩ := hok
    have e : hs = l ++ [p] := e
    subst e
    have hr : ∀ b, refs ⟨l ++ [p], .copied⟩ b = l.count (some b) := by
      intro b; simp only [refs, skip, eraseIdx_last]
    show Effect B _ ((l ++ [p]).getLast?.join.map .add) B' th'
    have hl : (l ++ [p]).getLast? = some p := by simp
    simp only [step, hl] at h
    rw [hl]
    show Effect B _ (p.map .add) B' th'
    cases hB : B.fetchAdd p with
    | none => rw [hB] at h; cases h
    | some B1 =>
      rw [hB] at h; cases h
      refine add_effect hB (fun b => ?_) (fun _ => rfl) (fun b hb => ?_)
      · show List.count (some b) (l ++ [p]) = _
        rw [hr, List.count_append, List.count_singleton]
        have : (if (p == some b) = true then 1 else 0) = one p b := by
          by_cases hp : p = some b <;> simp [one, hp]
        omega
      · subst hb; have := List.count_pos_iff.2 hm; rw [hr]; omega
  | dropping i => cases h; exact Effect.none (fun _ => rfl) (fun _ => rfl)
  | assigning i j =>
    obtain ⟨hij, hi, hj⟩ : i ≠ j ∧ i < hs.length ∧ j < hs.length := hok
    obtain ⟨q, hq⟩ := get_some hj
    obtain ⟨p, hp⟩ := get_some hi
    simp only [step, hq] at h; cases h
    refine Effect.none (fun b => ?_) (fun _ => rfl)
    have h1 : refs ⟨hs.set i q, .assigned i⟩ b = ((hs.set i q).eraseIdx i).count (some b) := rfl
    have h2 : refs ⟨hs, .assigning i j⟩ b = (hs.eraseIdx i).count (some b) := rfl
    have h3 := count_at (l := hs.set i q) (i := i) (p := q) (by simp [hi]) b
    have h4 := count_at hp b
    have h5 := count_set hp q b
    rw [h1, h2]; omega
  | assigned i =>
    obtain ⟨j, q, hij, hj, hi⟩ := hok
    have hj : hs[j]? = some q := hj
    have hi : hs[i]? = some q := hi
    have hr : ∀ b, refs ⟨hs, .assigned i⟩ b = (hs.eraseIdx i).count (some b) := fun _ => rfl
    show Effect B _ ((hs[i]?).join.map .add) B' th'
    simp only [step, hi] at h
    rw [hi]
    show Effect B _ (q.map .add) B' th'
    cases hB : B.fetchAdd q with
    | none => rw [hB] at h; cases h
    | some B1 =>
      rw [hB] at h; cases h
      refine add_effect hB (fun b => ?_) (fun _ => rfl) (fun b hb => ?_)
      · show hs.count (some b) = _
        rw [hr, count_at hi]; omega
      · have h2 : (hs.set i none)[j]? = some q := by rw [List.getElem?_set_ne (Ne.symm hij)]; exact hj
        have h3 := count_at h2 b
        have h4 := count_set hi none b
        have h5 : one none b = 0 := by simp [one]
        have h6 : one q b = 1 := by simp [one, hb]
        have h7 := count_at hi b
        rw [hr]; omega
  | moving i j =>
    obtain ⟨hi, hj⟩ : i < hs.length ∧ j < hs.length := hok
    obtain ⟨q, hq⟩ := get_some hj
    obtain ⟨p, hp⟩ := get_some hi
    simp only [step, hq] at h; cases h
    refine Effect.none (fun b => ?_) (fun _ => rfl)
    show ((hs.set i q).set j none).count (some b) = (hs.eraseIdx i).count (some b)
    have hn : one none b = 0 := by simp [one]
    have h2 : (hs.set i q)[j]? = some q := by
      by_cases hij : i = j
      · subst hij; simp [hi]
      · rw [List.getElem?_set_ne hij]; exact hq
    have h4 := count_at hp b
    rw [count_set h2, count_set hp]
    omega
  | deleting a k =>
    simp only [step, Blocks.delete] at h
    cases hc : B.counts a with
    | none => rw [hc] at h; cases h
    | some c =>
      rw [hc] at h; cases h
      have hk : ∀ b, pend ⟨hs, k⟩ b = 0 := by
        intro b
        have hk : After hs k := hok
        cases k <;> first | rfl | exact hk.elim
      refine ⟨rfl, fun b _ => Nat.le_refl _, fun b hb => absurd hb (Nat.lt_irrefl _), fun b hb => ?_, fun _ h => (by cases h),
        fun b hb => ?_, fun b hb => (by rcases hb with h | h | h <;> cases h), fun _ h => by cases h⟩
      · have hb : 0 < pend ⟨hs, k⟩ b := hb
        rw [hk] at hb; omega
      · cases hb
        show 0 < one (some a) a
        simp [one]
  | inUse b =>
    simp only [step] at h
    cases hB : B.touch b with
    | none => rw [hB] at h; cases h
    | some B1 =>
      rw [hB] at h; cases h
      exact touch_effect hB (fun _ => rfl) (fun _ => rfl) (List.count_pos_iff.2 hok)

end AThread

/-- the record accesses block `b` -/
def ARec.On (r : ARec) (b : Nat) : Prop := ∃ a, r.acc = some a ∧ a.block = b

namespace HB
variable {oa os : MemOrder} {tr : List ARec}

theorem lt {k l : Nat} (h : HB oa os tr k l) : k < l := by
  induction h with
  | program h | counter h | handover h => exact h
  | trans _ _ h1 h2 => exact Nat.lt_trans h1 h2

theorem get_mono {k : Nat} {r : ARec} (y : ARec) (h : tr[k]? = some r) : (tr ++ [y])[k]? = some r := by
  have hk : k < tr.length := by
    by_cases hk : k < tr.length
    · exact hk
    · rw [List.getElem?_eq_none (by omega)] at h; cases h
  rw [List.getElem?_append_left hk]; exact h

theorem get_last (y : ARec) : (tr ++ [y])[tr.length]? = some y := by simp

theorem get_lt {k : Nat} {r : ARec} (h : tr[k]? = some r) : k < tr.length := by
  by_cases hk : k < tr.length
  · exact hk
  · rw [List.getElem?_eq_none (by omega)] at h; cases h

theorem get_snoc {k : Nat} {r y : ARec} (h : (tr ++ [y])[k]? = some r) : tr[k]? = some r ∨ (k = tr.length ∧ r = y) := by
  by_cases hk : k < tr.length
  · rw [List.getElem?_append_left hk] at h; exact Or.inl h
  · have h2 := get_lt h
    simp at h2
    have : k = tr.length := by omega
    subst this
    rw [get_last] at h; cases h
    exact Or.inr ⟨rfl, rfl⟩

theorem mono {k l : Nat} (y : ARec) (h : HB oa os tr k l) : HB oa os (tr ++ [y]) k l := by
  induction h with
  | program h1 h2 h3 h4 => exact .program h1 (get_mono y h2) (get_mono y h3) h4
  | counter h1 h2 h3 h4 h5 h6 h7 => exact .counter h1 (get_mono y h2) (get_mono y h3) h4 h5 h6 h7
  | handover h1 h2 h3 h4 => exact .handover h1 (get_mono y h2) (get_mono y h3) h4
  | trans _ _ h1 h2 => exact .trans h1 h2

end HB

/-- everything thread `t` does from now on happens after step `k` (helper) -/
def Knows (oa os : MemOrder) (tr : List ARec) (t k : Nat) : Prop :=
  ∃ j r, tr[j]? = some r ∧ (r.thread = t ∨ r.to = some t) ∧ (k = j ∨ HB oa os tr k j)

/-- every later acquire operation on the counter of `b` happens after step `k` (helper) -/
def Pub (oa os : MemOrder) (tr : List ARec) (b k : Nat) : Prop :=
  ∃ j r m, tr[j]? = some r ∧ r.rmw oa os = some (b, m) ∧ m.release = true ∧ (k = j ∨ HB oa os tr k j)

section
variable {oa os : MemOrder} {tr : List ARec}

theorem Knows.mono {t k : Nat} (y : ARec) (h : Knows oa os tr t k) : Knows oa os (tr ++ [y]) t k := by
  obtain ⟨j, r, h1, h2, h3⟩ := h
  exact ⟨j, r, HB.get_mono y h1, h2, h3.imp id (HB.mono y)⟩

theorem Pub.mono {b k : Nat} (y : ARec) (h : Pub oa os tr b k) : Pub oa os (tr ++ [y]) b k := by
  obtain ⟨j, r, m, h1, h2, h3, h4⟩ := h
  exact ⟨j, r, m, HB.get_mono y h1, h2, h3, h4.imp id (HB.mono y)⟩

theorem Knows.hb {t k : Nat} {y : ARec} (h : Knows oa os tr t k) (hy : y.thread = t) : HB oa os (tr ++ [y]) k tr.length := by
  obtain ⟨j, r, h1, h2, h3⟩ := h
  have hj := HB.get_lt h1
  have hlast : HB oa os (tr ++ [y]) j tr.length := by
    rcases h2 with h2 | h2
    · exact .program hj (HB.get_mono y h1) (HB.get_last y) (by rw [h2, hy])
    · exact .handover hj (HB.get_mono y h1) (HB.get_last y) (by rw [h2, hy])
  rcases h3 with rfl | h3
  · exact hlast
  · exact .trans (h3.mono y) hlast

theorem Pub.hb {b k : Nat} {y : ARec} {m : MemOrder} (h : Pub oa os tr b k) (hy : y.rmw oa os = some (b, m))
    (hm : m.acquire = true) : HB oa os (tr ++ [y]) k tr.length := by
  obtain ⟨j, r, m', h1, h2, h3, h4⟩ := h
  have hlast : HB oa os (tr ++ [y]) j tr.length :=
    .counter (HB.get_lt h1) (HB.get_mono y h1) (HB.get_last y) h2 hy h3 hm
  rcases h4 with rfl | h4
  · exact hlast
  · exact .trans (h4.mono y) hlast

theorem Knows.last {t k : Nat} {y : ARec} (hy : y.thread = t ∨ y.to = some t)
    (h : k = tr.length ∨ HB oa os (tr ++ [y]) k tr.length) : Knows oa os (tr ++ [y]) t k :=
  ⟨tr.length, y, HB.get_last y, hy, h⟩

theorem Pub.last {b k : Nat} {y : ARec} {m : MemOrder} (hy : y.rmw oa os = some (b, m)) (hm : m.release = true)
    (h : k = tr.length ∨ HB oa os (tr ++ [y]) k tr.length) : Pub oa os (tr ++ [y]) b k :=
  ⟨tr.length, y, m, HB.get_last y, hy, hm, h⟩

end

/-- what holds of the records so far (helper) -/
structure Recorded (oa os : MemOrder) (s : Atomic) (tr : List ARec) : Prop where
  pub : ∀ (k : Nat) (r : ARec) (b : Nat), tr[k]? = some r → r.On b →
    (∃ (t : Nat) (th : AThread), s.threads[t]? = some th ∧ 0 < th.refs b) →
    Pub oa os tr b k ∨ ∃ (t : Nat) (th : AThread), s.threads[t]? = some th ∧ 0 < th.refs b ∧ Knows oa os tr t k
  pend : ∀ (t : Nat) (th : AThread) (b : Nat), s.threads[t]? = some th → 0 < th.pend b →
    ∀ (k : Nat) (r : ARec), tr[k]? = some r → r.On b → Knows oa os tr t k
  born : ∀ (t : Nat) (th : AThread) (b : Nat), s.threads[t]? = some th → 0 < th.refs b ∨ 0 < th.pend b →
    ∀ (k : Nat) (r : ARec), tr[k]? = some r → r.acc = some (.create b) → Knows oa os tr t k
  old : ∀ (k : Nat) (r : ARec) (b : Nat), tr[k]? = some r → r.On b → b < s.blk.next
  dead : ∀ (k : Nat) (r : ARec) (b : Nat), tr[k]? = some r → r.acc = some (.delete b) → BEv.delete b ∈ s.blk.log

/-- the records are ordered as they should (helper) -/
def Ordered (oa os : MemOrder) (tr : List ARec) : Prop :=
  ∀ (b k l : Nat) (r q : ARec), k < l → tr[k]? = some r → tr[l]? = some q → r.On b → q.On b →
    r.acc ≠ some (.delete b) ∧ q.acc ≠ some (.create b) ∧
    (r.acc = some (.create b) → HB oa os tr k l) ∧ (q.acc = some (.delete b) → HB oa os tr k l)

namespace Atomic
open Shared (one count_at)

theorem refs_le {s : Atomic} {t : Nat} {th : AThread} (h : s.threads[t]? = some th) (b : Nat) :
    th.refs b ≤ (s.threads.map (·.refs b)).sum := by
  rw [sum_at h]; omega

theorem pend_le {s : Atomic} {t : Nat} {th : AThread} (h : s.threads[t]? = some th) (b : Nat) :
    th.pend b ≤ (s.threads.map (·.pend b)).sum := by
  rw [sum_at h]; omega

theorem two_le {s : Atomic} {t u : Nat} {th tu : AThread} (h : s.threads[t]? = some th) (h' : s.threads[u]? = some tu)
    (hne : u ≠ t) (f : AThread → Nat) : f th + f tu ≤ (s.threads.map f).sum := by
  have hu : (s.threads.set t ⟨[], .idle⟩)[u]? = some tu := by rw [List.getElem?_set_ne (Ne.symm hne)]; exact h'
  have a1 := sum_at hu f
  have a2 := sum_set h ⟨[], .idle⟩ f
  have hd := sum_at h f
  have a3 : f ⟨[], .idle⟩ ≤ (((s.threads.set t ⟨[], .idle⟩).eraseIdx u).map f).sum := by
    have ht : t < s.threads.length := by
      by_cases hk : t < s.threads.length
      · exact hk
      · rw [List.getElem?_eq_none (by omega)] at h; cases h
    have hm : (⟨[], .idle⟩ : AThread) ∈ (s.threads.set t ⟨[], .idle⟩).eraseIdx u := by
      rw [List.mem_eraseIdx_iff_getElem?]
      exact ⟨t, Ne.symm hne, by simp [ht]⟩
    obtain ⟨l1, l2, e⟩ := List.append_of_mem hm
    rw [e]; simp; omega
  omega

theorem alive {s : Atomic} (hi : Inv s) {t : Nat} {th : AThread} (h : s.threads[t]? = some th) {b : Nat}
    (hp : 0 < th.refs b ∨ 0 < th.pend b) : b < s.blk.next ∧ BEv.delete b ∉ s.blk.log := by
  have h1 := refs_le h b
  have h2 := pend_le h b
  have hpos : 0 < (s.threads.map (·.refs b)).sum + (s.threads.map (·.pend b)).sum := by omega
  have hlt := hi.2.lt hpos
  refine ⟨hlt, fun hm => ?_⟩
  obtain ⟨_, _, _, k, g⟩ := (hi.2 b).1 hlt
  have : BEv.delete b ∈ s.blk.life b := by simp [Blocks.life, hm, BEv.block]
  dsimp only at g
  rw [g, if_neg (by omega)] at this
  simp at this

/-- the step of one thread (helper) -/
theorem local_recorded {oa os : MemOrder} (hacq : os.acquire = true) (hrel : os.release = true) {s : Atomic} (hi : Inv s) {tr : List ARec} (hj : Recorded oa os s tr)
    (hg : Ordered oa os tr) {t : Nat} {th : AThread} (ht : s.threads[t]? = some th) {a : Option Acc} {B' : Blocks}
    {th' : AThread} (E : AThread.Effect s.blk th a B' th') :
    Recorded oa os ⟨B', s.threads.set t th'⟩ (tr ++ [⟨t, a, none⟩]) ∧ Ordered oa os (tr ++ [⟨t, a, none⟩]) := by
  have htl : t < s.threads.length := by
    by_cases hk : t < s.threads.length
    · exact hk
    · rw [List.getElem?_eq_none (by omega)] at ht; cases ht
  have hset : (s.threads.set t th')[t]? = some th' := by simp [htl]
  have hne : ∀ u, u ≠ t → (s.threads.set t th')[u]? = s.threads[u]? := fun u hu => List.getElem?_set_ne (Ne.symm hu)
  -- an access is to a block the thread refers to, or to a new one
  have hon : ∀ b, (⟨t, a, none⟩ : ARec).On b → (a = some (.create b) ∧ b = s.blk.next) ∨
      (a ≠ some (.create b) ∧ (0 < th.refs b ∨ 0 < th.pend b)) := by
    intro b hb
    obtain ⟨x, hx, hxb⟩ := hb
    have hx : a = some x := hx
    subst hx
    cases x <;> (simp only [Acc.block] at hxb; subst hxb)
    · exact Or.inl ⟨rfl, E.fresh _ rfl⟩
    · exact Or.inr ⟨by simp, Or.inl (E.held _ (by simp))⟩
    · exact Or.inr ⟨by simp, Or.inl (E.held _ (by simp))⟩
    · exact Or.inr ⟨by simp, Or.inl (E.held _ (by simp))⟩
    · exact Or.inr ⟨by simp, Or.inr (E.pending _ rfl)⟩
  have hsub : ∀ b, a = some (.sub b) → (⟨t, a, none⟩ : ARec).rmw oa os = some (b, os) := by
    intro b hb; subst hb; rfl
  have hself : ∀ k, Knows oa os tr t k → HB oa os (tr ++ [⟨t, a, none⟩]) k tr.length := fun k h => h.hb rfl
  have hnext : s.blk.next ≤ B'.next := by
    rw [E.perform]
    cases a with
    | none => exact Nat.le_refl _
    | some x => cases x <;> simp [Blocks.perform]
  have hlog : ∀ e, e ∈ s.blk.log → e ∈ B'.log := by
    intro e he
    rw [E.perform]
    cases a with
    | none => exact he
    | some x => cases x <;> simp [Blocks.perform, he]
  -- what was referred to before the step
  have hback : ∀ b, b < s.blk.next → 0 < th'.refs b → 0 < th.refs b := by
    intro b hb h
    by_cases hlt : th.refs b < th'.refs b
    · rcases E.gain b hlt with h1 | h1
      · exact E.held b (Or.inl h1)
      · have := E.fresh b h1; omega
    · omega
  refine ⟨⟨?_, ?_, ?_, ?_, ?_⟩, ?_⟩
  · intro k r b hk hr hheld
    by_cases hs : a = some (.sub b)
    · have hth := E.held b (Or.inr (Or.inl hs))
      rcases HB.get_snoc hk with hk | ⟨rfl, rfl⟩
      · rcases hj.pub k r b hk hr ⟨t, th, ht, hth⟩ with h | ⟨u, tu, hu, hu2, hu3⟩
        · exact Or.inl (h.mono _)
        · by_cases hut : u = t
          · subst hut
            exact Or.inl (Pub.last (hsub b hs) hrel (Or.inr (hself k hu3)))
          · exact Or.inr ⟨u, tu, by rw [hne u hut]; exact hu, hu2, hu3.mono _⟩
      · exact Or.inl (Pub.last (hsub b hs) hrel (Or.inl rfl))
    · have hkeep := E.keep b hs
      rcases HB.get_snoc hk with hk' | ⟨rfl, rfl⟩
      · have hold : ∃ (t : Nat) (th : AThread), s.threads[t]? = some th ∧ 0 < th.refs b := by
          obtain ⟨u, tu, hu, hu2⟩ := hheld
          by_cases hut : u = t
          · subst hut
            rw [hset] at hu; cases hu
            exact ⟨u, th, ht, hback b (hj.old k r b hk' hr) hu2⟩
          · rw [hne u hut] at hu; exact ⟨u, tu, hu, hu2⟩
        rcases hj.pub k r b hk' hr hold with h | ⟨u, tu, hu, hu2, hu3⟩
        · exact Or.inl (h.mono _)
        · by_cases hut : u = t
          · subst hut
            rw [ht] at hu; cases hu
            exact Or.inr ⟨u, th', hset, Nat.lt_of_lt_of_le hu2 hkeep, hu3.mono _⟩
          · exact Or.inr ⟨u, tu, by rw [hne u hut]; exact hu, hu2, hu3.mono _⟩
      · have hmine : 0 < th'.refs b := by
          obtain ⟨x, hx, hxb⟩ := hr
          have hx : a = some x := hx
          subst hx
          cases x <;> (simp only [Acc.block] at hxb; subst hxb)
          · exact E.own _ rfl
          · exact Nat.lt_of_lt_of_le (E.held _ (by simp)) hkeep
          · exact absurd rfl hs
          · exact Nat.lt_of_lt_of_le (E.held _ (by simp)) hkeep
          · rename_i b
            -- nobody refers to a block that is being deleted
            exfalso
            have hp := E.pending _ rfl
            have hp2 := pend_le ht b
            have hlt := (alive hi ht (Or.inr hp)).1
            obtain ⟨g1, g2, _⟩ := (hi.2 b).1 hlt
            have h0 : (s.threads.map (·.refs b)).sum = 0 := g2 (by dsimp only at g1 ⊢; omega)
            obtain ⟨u, tu, hu, hu2⟩ := hheld
            by_cases hut : u = t
            · subst hut
              rw [hset] at hu; cases hu
              have := hback b hlt hu2
              have := refs_le ht b
              omega
            · rw [hne u hut] at hu
              have := refs_le hu b
              omega
        exact Or.inr ⟨t, th', hset, hmine, Knows.last (Or.inl rfl) (Or.inl rfl)⟩
  · intro u tu b hu hp k r hk hr
    by_cases hut : u = t
    · subst hut
      rw [hset] at hu; cases hu
      obtain ⟨hs, hc⟩ := E.last b hp
      have hth := E.held b (Or.inr (Or.inl hs))
      rcases HB.get_snoc hk with hk | ⟨rfl, rfl⟩
      · rcases hj.pub k r b hk hr ⟨u, th, ht, hth⟩ with h | ⟨v, tv, hv, hv2, hv3⟩
        · exact Knows.last (Or.inl rfl) (Or.inr (h.hb (hsub b hs) hacq))
        · by_cases hvt : v = u
          · subst hvt; exact hv3.mono _
          · exfalso
            have h2 : th.refs b + tv.refs b ≤ (s.threads.map (·.refs b)).sum := two_le ht hv hvt (·.refs b)
            have hc2 : s.blk.counts b = some (s.threads.map (·.refs b)).sum :=
              hi.2.count (a := b) (Nat.lt_of_lt_of_le (by omega) (Nat.le_add_right _ _))
            rw [hc] at hc2
            injection hc2 with hc2
            omega
      · exact Knows.last (Or.inl rfl) (Or.inl rfl)
    · rw [hne u hut] at hu
      rcases HB.get_snoc hk with hk | ⟨rfl, rfl⟩
      · exact (hj.pend u tu b hu hp k r hk hr).mono _
      · exfalso
        have hlt := (alive hi hu (Or.inr hp)).1
        have hp2 := pend_le hu b
        obtain ⟨g1, g2, _⟩ := (hi.2 b).1 hlt
        have h0 : (s.threads.map (·.refs b)).sum = 0 := g2 (by dsimp only at g1 ⊢; omega)
        rcases hon b hr with ⟨_, h⟩ | ⟨_, h | h⟩
        · omega
        · have := refs_le ht b; omega
        · have := two_le ht hu hut (·.pend b)
          dsimp only at g1 this; omega
  · intro u tu b hu hp k r hk hr
    by_cases hut : u = t
    · subst hut
      rw [hset] at hu; cases hu
      rcases HB.get_snoc hk with hk | ⟨rfl, rfl⟩
      · have hlt := hj.old k r b hk ⟨_, hr, rfl⟩
        have hth : 0 < th.refs b := by
          rcases hp with hp | hp
          · exact hback b hlt hp
          · exact E.held b (Or.inr (Or.inl (E.last b hp).1))
        exact (hj.born u th b ht (Or.inl hth) k r hk hr).mono _
      · exact Knows.last (Or.inl rfl) (Or.inl rfl)
    · rw [hne u hut] at hu
      rcases HB.get_snoc hk with hk | ⟨rfl, rfl⟩
      · exact (hj.born u tu b hu hp k r hk hr).mono _
      · have h1 := E.fresh b hr
        have h2 := (alive hi hu hp).1
        omega
  · intro k r b hk hr
    show b < B'.next
    rcases HB.get_snoc hk with hk | ⟨rfl, rfl⟩
    · have := hj.old k r b hk hr; omega
    · rcases hon b hr with ⟨h1, h2⟩ | ⟨_, h⟩
      · rw [E.perform, h1, h2]; simp [Blocks.perform]
      · have := (alive hi ht h).1; omega
  · intro k r b hk hr
    rcases HB.get_snoc hk with hk | ⟨rfl, rfl⟩
    · exact hlog _ (hj.dead k r b hk hr)
    · have hr : a = some (.delete b) := hr
      show _ ∈ B'.log
      rw [E.perform, hr]; simp [Blocks.perform]
  · intro b k l r q hkl hk hl hr hq
    rcases HB.get_snoc hl with hl | ⟨rfl, rfl⟩
    · have hk : tr[k]? = some r := by
        rcases HB.get_snoc hk with hk | ⟨rfl, rfl⟩
        · exact hk
        · have := HB.get_lt hl; omega
      obtain ⟨h1, h2, h3, h4⟩ := hg b k l r q hkl hk hl hr hq
      exact ⟨h1, h2, fun h => (h3 h).mono _, fun h => (h4 h).mono _⟩
    · have hk : tr[k]? = some r := by
        rcases HB.get_snoc hk with hk | ⟨rfl, rfl⟩
        · exact hk
        · omega
      have hlt := hj.old k r b hk hr
      rcases hon b hq with ⟨_, h⟩ | ⟨hc, h⟩
      · omega
      · refine ⟨fun hd => (alive hi ht h).2 (hj.dead k r b hk hd), hc, fun hcr => ?_, fun hd => ?_⟩
        · exact hself k (hj.born t th b ht h k r hk hcr)
        · exact hself k (hj.pend t th b ht (E.pending b hd) k r hk hr)

/-- a step that accesses no block and hands nothing over (helper) -/
theorem noop_recorded {oa os : MemOrder} {s : Atomic} {tr : List ARec} (hj : Recorded oa os s tr)
    (hg : Ordered oa os tr) (t : Nat) :
    Recorded oa os s (tr ++ [⟨t, none, none⟩]) ∧ Ordered oa os (tr ++ [⟨t, none, none⟩]) := by
  have hno : ∀ b (r : ARec), r.On b → r = ⟨t, none, none⟩ → False := by
    intro b r h e; subst e; obtain ⟨x, hx, _⟩ := h; cases hx
  have hget : ∀ (k : Nat) (r : ARec) (b : Nat), (tr ++ [(⟨t, none, none⟩ : ARec)])[k]? = some r → r.On b → tr[k]? = some r := by
    intro k r b hk hr
    rcases HB.get_snoc hk with hk | ⟨_, h⟩
    · exact hk
    · exact (hno b r hr h).elim
  refine ⟨⟨fun k r b hk hr h => ?_, fun u tu b hu hp k r hk hr => ?_, fun u tu b hu hp k r hk hr => ?_,
    fun k r b hk hr => hj.old k r b (hget k r b hk hr) hr,
    fun k r b hk hr => hj.dead k r b (hget k r b hk ⟨_, hr, rfl⟩) hr⟩, fun b k l r q hkl hk hl hr hq => ?_⟩
  · rcases hj.pub k r b (hget k r b hk hr) hr h with h | ⟨u, tu, hu, hu2, hu3⟩
    · exact Or.inl (h.mono _)
    · exact Or.inr ⟨u, tu, hu, hu2, hu3.mono _⟩
  · exact (hj.pend u tu b hu hp k r (hget k r b hk hr) hr).mono _
  · exact (hj.born u tu b hu hp k r (hget k r b hk ⟨_, hr, rfl⟩) hr).mono _
  · obtain ⟨h1, h2, h3, h4⟩ := hg b k l r q hkl (hget k r b hk hr) (hget l q b hl hq) hr hq
    exact ⟨h1, h2, fun h => (h3 h).mono _, fun h => (h4 h).mono _⟩

/-- handing a handle over (helper) -/
theorem send_recorded {oa os : MemOrder} {s : Atomic} {tr : List ARec} (hj : Recorded oa os s tr)
    (hg : Ordered oa os tr) {t u i : Nat} {hs hs2 : List (Option Nat)} {p : Option Nat} (ht : s.threads[t]? = some ⟨hs, .idle⟩)
    (hu : s.threads[u]? = some ⟨hs2, .idle⟩) (hut : u ≠ t) (hp : hs[i]? = some p) :
    Recorded oa os { s with threads := (s.threads.set t ⟨hs.eraseIdx i, .idle⟩).set u ⟨hs2 ++ [p], .idle⟩ }
        (tr ++ [⟨t, none, some u⟩]) ∧ Ordered oa os (tr ++ [⟨t, none, some u⟩]) := by
  have hno : ∀ b (r : ARec), r.On b → r = ⟨t, none, some u⟩ → False := by
    intro b r h e; subst e; obtain ⟨x, hx, _⟩ := h; cases hx
  have hget : ∀ (k : Nat) (r : ARec) (b : Nat), (tr ++ [(⟨t, none, some u⟩ : ARec)])[k]? = some r → r.On b → tr[k]? = some r := by
    intro k r b hk hr
    rcases HB.get_snoc hk with hk | ⟨_, h⟩
    · exact hk
    · exact (hno b r hr h).elim
  have hlen : ∀ {v : Nat} {tv : AThread}, s.threads[v]? = some tv → v < s.threads.length := by
    intro v tv h
    by_cases hk : v < s.threads.length
    · exact hk
    · rw [List.getElem?_eq_none (by omega)] at h; cases h
  have hnewU : ((s.threads.set t ⟨hs.eraseIdx i, .idle⟩).set u ⟨hs2 ++ [p], .idle⟩)[u]? = some ⟨hs2 ++ [p], .idle⟩ := by
    simp [hlen hu]
  have hnewT : ((s.threads.set t ⟨hs.eraseIdx i, .idle⟩).set u ⟨hs2 ++ [p], .idle⟩)[t]? = some ⟨hs.eraseIdx i, .idle⟩ := by
    rw [List.getElem?_set_ne hut]; simp [hlen ht]
  have hnew : ∀ v, v ≠ t → v ≠ u → ((s.threads.set t ⟨hs.eraseIdx i, .idle⟩).set u ⟨hs2 ++ [p], .idle⟩)[v]? = s.threads[v]? := by
    intro v h1 h2
    rw [List.getElem?_set_ne (Ne.symm h2), List.getElem?_set_ne (Ne.symm h1)]
  have r1 : ∀ b, AThread.refs ⟨hs, .idle⟩ b = one p b + AThread.refs ⟨hs.eraseIdx i, .idle⟩ b := fun b => count_at hp b
  have r2 : ∀ b, AThread.refs ⟨hs2 ++ [p], .idle⟩ b = AThread.refs ⟨hs2, .idle⟩ b + one p b := by
    intro b
    show List.count (some b) (hs2 ++ [p]) = hs2.count (some b) + one p b
    rw [List.count_append, List.count_singleton]
    by_cases h : p = some b <;> simp [one, h]
  have hknow : ∀ k, Knows oa os tr t k → Knows oa os (tr ++ [⟨t, none, some u⟩]) u k := fun k h =>
    Knows.last (Or.inr rfl) (Or.inr (h.hb rfl))
  have hold : ∀ b, (∃ (v : Nat) (tv : AThread),
      ((s.threads.set t ⟨hs.eraseIdx i, .idle⟩).set u ⟨hs2 ++ [p], .idle⟩)[v]? = some tv ∧ 0 < tv.refs b) →
      ∃ (v : Nat) (tv : AThread), s.threads[v]? = some tv ∧ 0 < tv.refs b := by
    intro b ⟨v, tv, hv, hv2⟩
    by_cases hvt : v = t
    · subst hvt
      rw [hnewT] at hv; cases hv
      exact ⟨v, _, ht, by rw [r1]; omega⟩
    · by_cases hvu : v = u
      · subst hvu
        rw [hnewU] at hv; cases hv
        rw [r2] at hv2
        by_cases h0 : 0 < AThread.refs ⟨hs2, .idle⟩ b
        · exact ⟨v, _, hu, h0⟩
        · exact ⟨t, _, ht, by rw [r1]; omega⟩
      · rw [hnew v hvt hvu] at hv; exact ⟨v, tv, hv, hv2⟩
  refine ⟨⟨fun k r b hk hr h => ?_, fun v tv b hv hpe k r hk hr => ?_, fun v tv b hv hpe k r hk hr => ?_,
    fun k r b hk hr => hj.old k r b (hget k r b hk hr) hr,
    fun k r b hk hr => hj.dead k r b (hget k r b hk ⟨_, hr, rfl⟩) hr⟩, fun b k l r q hkl hk hl hr hq => ?_⟩
  · rcases hj.pub k r b (hget k r b hk hr) hr (hold b h) with h | ⟨v, tv, hv, hv2, hv3⟩
    · exact Or.inl (h.mono _)
    · right
      by_cases hvt : v = t
      · subst hvt
        rw [ht] at hv; cases hv
        rw [r1] at hv2
        by_cases h0 : 0 < AThread.refs ⟨hs.eraseIdx i, .idle⟩ b
        · exact ⟨v, _, hnewT, h0, hv3.mono _⟩
        · exact ⟨u, _, hnewU, by rw [r2]; omega, hknow k hv3⟩
      · by_cases hvu : v = u
        · subst hvu
          rw [hu] at hv; cases hv
          exact ⟨v, _, hnewU, by rw [r2]; omega, hv3.mono _⟩
        · exact ⟨v, tv, by rw [← hv]; exact hnew v hvt hvu, hv2, hv3.mono _⟩
  · by_cases hvt : v = t
    · subst hvt
      rw [hnewT] at hv; cases hv
      exact absurd hpe (Nat.lt_irrefl 0)
    · by_cases hvu : v = u
      · subst hvu
        rw [hnewU] at hv; cases hv
        exact absurd hpe (Nat.lt_irrefl 0)
      · rw [hnew v hvt hvu] at hv
        exact (hj.pend v tv b hv hpe k r (hget k r b hk hr) hr).mono _
  · have hk' := hget k r b hk ⟨_, hr, rfl⟩
    by_cases hvt : v = t
    · subst hvt
      rw [hnewT] at hv; cases hv
      rcases hpe with hpe | hpe
      · exact (hj.born v _ b ht (Or.inl (by rw [r1]; omega)) k r hk' hr).mono _
      · exact absurd hpe (Nat.lt_irrefl 0)
    · by_cases hvu : v = u
      · subst hvu
        rw [hnewU] at hv; cases hv
        rcases hpe with hpe | hpe
        · rw [r2] at hpe
          by_cases h0 : 0 < AThread.refs ⟨hs2, .idle⟩ b
          · exact (hj.born v _ b hu (Or.inl h0) k r hk' hr).mono _
          · exact hknow k (hj.born t _ b ht (Or.inl (by rw [r1]; omega)) k r hk' hr)
        · exact absurd hpe (Nat.lt_irrefl 0)
      · rw [hnew v hvt hvu] at hv
        exact (hj.born v tv b hv hpe k r hk' hr).mono _
  · obtain ⟨h1, h2, h3, h4⟩ := hg b k l r q hkl (hget k r b hk hr) (hget l q b hl hq) hr hq
    exact ⟨h1, h2, fun h => (h3 h).mono _, fun h => (h4 h).mono _⟩

theorem step_recorded {oa os : MemOrder} (hacq : os.acquire = true) (hrel : os.release = true) {s s' : Atomic} (hi : Inv s)
    {tr : List ARec} (hj : Recorded oa os s tr) (hg : Ordered oa os tr) {t : Nat} {o : AOp} (h : s.step t o = some s') :
    Recorded oa os s' (tr ++ [s.record t o]) ∧ Ordered oa os (tr ++ [s.record t o]) := by
  simp only [step] at h
  cases ht : s.threads[t]? with
  | none =>
    rw [ht] at h; cases h
    have : s.record t o = ⟨t, none, none⟩ := by simp only [record, ht]
    rw [this]; exact noop_recorded hj hg t
  | some th =>
    rw [ht] at h
    have main : ((th.step s.blk o).map fun (B', th') => (⟨B', s.threads.set t th'⟩ : Atomic)) = some s' →
        Recorded oa os s' (tr ++ [⟨t, th.acc s.blk o, none⟩]) ∧ Ordered oa os (tr ++ [⟨t, th.acc s.blk o, none⟩]) := by
      intro h
      cases hst : th.step s.blk o with
      | none => rw [hst] at h; cases h
      | some x =>
        obtain ⟨B', th'⟩ := x
        rw [hst] at h; cases h
        exact local_recorded hacq hrel hi hj hg ht (AThread.step_effect (hi.1 th (List.mem_of_getElem? ht)) hst)
    obtain ⟨hs, pc⟩ := th
    have hrec : s.record t o = (match pc, o with
        | .idle, .send i u =>
          match hs[i]?, s.threads[u]? with
          | some _, some tu => if u = t ∨ tu.pc ≠ .idle then ⟨t, none, none⟩ else ⟨t, none, some u⟩
          | _, _ => ⟨t, none, none⟩
        | _, _ => ⟨t, AThread.acc s.blk ⟨hs, pc⟩ o, none⟩ : ARec) := by
      unfold record
      rw [ht]
      cases pc <;> cases o <;> rfl
    rw [hrec]
    cases pc with
    | idle =>
      cases o with
      | send i u =>
        have h : (match hs[i]?, s.threads[u]? with
          | some p, some tu =>
            if u = t ∨ tu.pc ≠ .idle then some s
            else some { s with threads := (s.threads.set t ⟨hs.eraseIdx i, .idle⟩).set u { tu with hs := tu.hs ++ [p] } }
          | _, _ => some s) = some s' := h
        show Recorded oa os s' (tr ++ [match hs[i]?, s.threads[u]? with
          | some _, some tu => if u = t ∨ tu.pc ≠ .idle then ⟨t, none, none⟩ else ⟨t, none, some u⟩
          | _, _ => ⟨t, none, none⟩]) ∧ Ordered oa os (tr ++ [match hs[i]?, s.threads[u]? with
          | some _, some tu => if u = t ∨ tu.pc ≠ .idle then ⟨t, none, none⟩ else ⟨t, none, some u⟩
          | _, _ => ⟨t, none, none⟩])
        cases hp : hs[i]? with
        | none => rw [hp] at h; cases h; exact noop_recorded hj hg t
        | some p =>
          rw [hp] at h
          cases hu : s.threads[u]? with
          | none => rw [hu] at h; cases h; exact noop_recorded hj hg t
          | some tu =>
            rw [hu] at h
            obtain ⟨hs2, pc2⟩ := tu
            simp only at h ⊢
            by_cases hc : u = t ∨ pc2 ≠ .idle
            · rw [if_pos hc] at h; cases h
              rw [if_pos hc]; exact noop_recorded hj hg t
            · have hut : u ≠ t := fun e => hc (Or.inl e)
              have hpc2 : pc2 = .idle := by
                by_cases e : pc2 = .idle
                · exact e
                · exact absurd (Or.inr e) hc
              rw [if_neg hc] at h; cases h
              rw [if_neg hc]
              subst hpc2
              exact send_recorded hj hg ht hu hut hp
      | _ => exact main h
    | _ => cases o <;> exact main h

theorem trace_ordered {oa os : MemOrder} (hacq : os.acquire = true) (hrel : os.release = true) {s : Atomic} (hi : Inv s)
    {tr : List ARec} (hj : Recorded oa os s tr) (hg : Ordered oa os tr) (sched : List (Nat × AOp)) (ho : NoSelfAssignA sched) :
    Ordered oa os (tr ++ s.trace sched) := by
  induction sched generalizing s tr with
  | nil => simpa [trace] using hg
  | cons x os' ih =>
    obtain ⟨t, o⟩ := x
    obtain ⟨s1, e1, h1, _⟩ := step_ok hi t o (fun i e => ho t i (by simp [e]))
    obtain ⟨h2, h3⟩ := step_recorded hacq hrel hi hj hg e1
    have := ih h1 h2 h3 (fun t i hm => ho t i (List.mem_cons_of_mem _ hm))
    simpa [trace, e1] using this


theorem start_ordered (n : Nat) (sched : List (Nat × AOp)) (hs : NoSelfAssignA sched) :
    Ordered orderAdd orderSub ((start n).trace sched) := by
  have h : Recorded orderAdd orderSub (start n) [] :=
    ⟨fun k r b hk => by simp at hk, fun t th b _ _ k r hk => by simp at hk, fun t th b _ _ k r hk => by simp at hk,
      fun k r b hk => by simp at hk, fun k r b hk => by simp at hk⟩
  have := trace_ordered (os := orderSub) rfl rfl (start_inv n) h (fun b k l r q _ hk => by simp at hk) sched hs
  simpa using this

end Atomic

/-- **C66.** Any number of threads use `atomic_shared` handles, in any interleaving. If a step deletes a block,
then every other step that accesses the block happens before it in the sense of the C++ memory model: the
counter operations of all threads, the start and the end of every call of the wrapped allocator, and the
construction. In particular no step accesses the block later, and no access races with the deletion. -/
theorem C66_delete_happens_last (n : Nat) (sched : List (Nat × AOp)) (hs : NoSelfAssignA sched) (b k l : Nat) (r q : ARec)
    (hl : ((Atomic.start n).trace sched)[l]? = some q) (hd : q.acc = some (.delete b))
    (hk : ((Atomic.start n).trace sched)[k]? = some r) (hr : r.On b) (hkl : k ≠ l) :
    HB orderAdd orderSub ((Atomic.start n).trace sched) k l := by
  have h := Atomic.start_ordered n sched hs
  have hq : q.On b := ⟨_, hd, rfl⟩
  rcases Nat.lt_or_gt_of_ne hkl with hlt | hlt
  · exact (h b k l r q hlt hk hl hr hq).2.2.2 hd
  · exact absurd hd (h b l k q r hlt hl hk hq hr).1

/-- The construction of a block happens before every other access to it. -/
theorem C66_create_happens_first (n : Nat) (sched : List (Nat × AOp)) (hs : NoSelfAssignA sched) (b k l : Nat) (r q : ARec)
    (hk : ((Atomic.start n).trace sched)[k]? = some r) (hc : r.acc = some (.create b))
    (hl : ((Atomic.start n).trace sched)[l]? = some q) (hq : q.On b) (hkl : k ≠ l) :
    HB orderAdd orderSub ((Atomic.start n).trace sched) k l := by
  have h := Atomic.start_ordered n sched hs
  have hr : r.On b := ⟨_, hc, rfl⟩
  rcases Nat.lt_or_gt_of_ne hkl with hlt | hlt
  · exact (h b k l r q hlt hk hl hr hq).2.2.1 hc
  · exact absurd hc (h b l k q r hlt hl hk hq hr).2.1

/-- The records are complete: what a step does to the blocks is what its recorded access says. -/
theorem C66_records_are_complete (n : Nat) (sched : List (Nat × AOp)) (hs : NoSelfAssignA sched) (s s' : Atomic)
    (hrun : (Atomic.start n).run sched = some s) (t : Nat) (o : AOp) (hstep : s.step t o = some s') :
    (s.record t o).thread = t ∧ s'.blk = s.blk.perform (s.record t o).acc ∧
      ∀ u, u ≠ t → (s.record t o).to ≠ some u → s'.threads[u]? = s.threads[u]? := by
  obtain ⟨s0, e, hi⟩ := Atomic.run_ok (Atomic.start_inv n) sched hs
  rw [hrun] at e; cases e
  simp only [Atomic.step] at hstep
  cases ht : s.threads[t]? with
  | none =>
    rw [ht] at hstep; cases hstep
    have : s.record t o = ⟨t, none, none⟩ := by simp only [Atomic.record, ht]
    rw [this]; exact ⟨rfl, rfl, fun _ _ _ => rfl⟩
  | some th =>
    rw [ht] at hstep
    have main : ((th.step s.blk o).map fun (B', th') => (⟨B', s.threads.set t th'⟩ : Atomic)) = some s' →
        s'.blk = s.blk.perform (th.acc s.blk o) ∧ ∀ u, u ≠ t → s'.threads[u]? = s.threads[u]? := by
      intro h
      cases hst : th.step s.blk o with
      | none => rw [hst] at h; cases h
      | some x =>
        obtain ⟨B', th'⟩ := x
        rw [hst] at h; cases h
        exact ⟨(AThread.step_effect (hi.1 th (List.mem_of_getElem? ht)) hst).perform,
          fun u hu => List.getElem?_set_ne (Ne.symm hu)⟩
    obtain ⟨hs, pc⟩ := th
    have hrec : s.record t o = (match pc, o with
        | .idle, .send i u =>
          match hs[i]?, s.threads[u]? with
          | some _, some tu => if u = t ∨ tu.pc ≠ .idle then ⟨t, none, none⟩ else ⟨t, none, some u⟩
          | _, _ => ⟨t, none, none⟩
        | _, _ => ⟨t, AThread.acc s.blk ⟨hs, pc⟩ o, none⟩ : ARec) := by
      unfold Atomic.record
      rw [ht]
      cases pc <;> cases o <;> rfl
    rw [hrec]
    cases pc with
    | idle =>
      cases o with
      | send i u =>
        have h : (match hs[i]?, s.threads[u]? with
          | some p, some tu =>
            if u = t ∨ tu.pc ≠ .idle then some s
            else some { s with threads := (s.threads.set t ⟨hs.eraseIdx i, .idle⟩).set u { tu with hs := tu.hs ++ [p] } }
          | _, _ => some s) = some s' := hstep
        dsimp only
        cases hp : hs[i]? with
        | none => rw [hp] at h; cases h; exact ⟨rfl, rfl, fun _ _ _ => rfl⟩
        | some p =>
          rw [hp] at h
          cases hu : s.threads[u]? with
          | none => rw [hu] at h; cases h; exact ⟨rfl, rfl, fun _ _ _ => rfl⟩
          | some tu =>
            rw [hu] at h
            dsimp only at h ⊢
            by_cases hc : u = t ∨ tu.pc ≠ .idle
            · rw [if_pos hc] at h; cases h
              rw [if_pos hc]; exact ⟨rfl, rfl, fun _ _ _ => rfl⟩
            · rw [if_neg hc] at h; cases h
              rw [if_neg hc]
              refine ⟨rfl, rfl, fun v hv hv2 => ?_⟩
              have hv2 : u ≠ v := fun e => hv2 (by rw [e])
              show ((s.threads.set t _).set u _)[v]? = _
              rw [List.getElem?_set_ne hv2, List.getElem?_set_ne (Ne.symm hv)]
      | _ => exact ⟨rfl, (main hstep).1, fun u hu _ => (main hstep).2 u hu⟩
    | _ => cases o <;> exact ⟨rfl, (main hstep).1, fun u hu _ => (main hstep).2 u hu⟩

/-! ### Non-vacuity, and what the memory order is needed for -/

/-- Thread 1 gets a copy of a handle, uses the block and gives it up; then thread 0 gives up its handle and
deletes the block. -/
def orderSched : List (Nat × AOp) :=
  [(0, .create), (0, .copy 0), (0, .create), (0, .send 0 1), (1, .use 0), (1, .create), (1, .drop 0), (0, .drop 0), (0, .create)]

example : NoSelfAssignA orderSched := by
  intro t i h
  simp [orderSched] at h

theorem orderSched_trace : (Atomic.start 2).trace orderSched =
    [⟨0, some (.create 0), none⟩, ⟨0, none, none⟩, ⟨0, some (.add 0), none⟩, ⟨0, none, some 1⟩, ⟨1, some (.touch 0), none⟩,
     ⟨1, some (.touch 0), none⟩, ⟨1, some (.sub 0), none⟩, ⟨0, some (.sub 0), none⟩, ⟨0, some (.delete 0), none⟩] := by decide

/-- the use of step 4 happens before the deletion in step 8 -/
example : HB orderAdd orderSub ((Atomic.start 2).trace orderSched) 4 8 :=
  C66_delete_happens_last 2 orderSched (by intro t i h; simp [orderSched] at h) 0 4 8 ⟨1, some (.touch 0), none⟩
    ⟨0, some (.delete 0), none⟩ (by rw [orderSched_trace]; rfl) rfl (by rw [orderSched_trace]; rfl) ⟨_, rfl, rfl⟩ (by decide)

/-- With a weaker order than `memory_order_acq_rel` for `fetch_sub` this would not be so, whatever the order of
`fetch_add`: the end of the last call of the wrapped allocator would race with its destruction. -/
theorem C66_weaker_order_fails (oa os : MemOrder) (h : (os.release && os.acquire) = false) :
    ¬ HB oa os ((Atomic.start 2).trace orderSched) 5 8 := by
  rw [orderSched_trace]
  suffices ∀ k l, HB oa os _ k l → 4 ≤ k → k ≤ 6 → l ≤ 6 by
    intro hb; have := this 5 8 hb (by decide) (by decide); omega
  intro k l hb
  induction hb with
  | @program k l r q hlt hk hl e =>
    intro h4 h6
    have hl9 := HB.get_lt hl
    simp only [List.length_cons, List.length_nil] at hl9
    obtain rfl | rfl | rfl : k = 4 ∨ k = 5 ∨ k = 6 := by omega
    all_goals
      cases hk
      by_cases h7 : l ≤ 6
      · exact h7
      · obtain rfl | rfl : l = 7 ∨ l = 8 := by omega
        all_goals (cases hl; cases e)
  | @counter k l b r q m m' hlt hk hl e e' hr ha =>
    intro h4 h6
    have hl9 := HB.get_lt hl
    simp only [List.length_cons, List.length_nil] at hl9
    obtain rfl | rfl | rfl : k = 4 ∨ k = 5 ∨ k = 6 := by omega
    · cases hk; cases e
    · cases hk; cases e
    · cases hk
      by_cases h7 : l ≤ 6
      · exact h7
      · obtain rfl | rfl : l = 7 ∨ l = 8 := by omega
        · cases hl; cases e; cases e'
          rw [hr, ha] at h; cases h
        · cases hl; cases e'
  | @handover k l r q hlt hk hl e =>
    intro h4 h6
    obtain rfl | rfl | rfl : k = 4 ∨ k = 5 ∨ k = 6 := by omega
    all_goals (cases hk; cases e)
  | trans h1 h2 i1 i2 =>
    intro h4 h6
    have := h1.lt
    have := i1 h4 h6
    exact i2 (by omega) this

end KTL
