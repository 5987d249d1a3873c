import Verif.Conc.Atomic
import Verif.Props.Shared

/- C26: `atomic_shared` handles used by several threads. -/
namespace KTL

/-- the life of block `b` so far -/
def Blocks.life (B : Blocks) (b : Nat) : List BEv := B.log.filter fun e => e.block == b

/-- how many handles, of all threads, refer to block `b` -/
def Atomic.handles (s : Atomic) (b : Nat) : Nat := (s.threads.map fun th => th.hs.count (some b)).sum

/-- no thread is inside an operation -/
def Atomic.Quiet (s : Atomic) : Prop := ∀ th ∈ s.threads, th.pc = .idle

/-- no thread assigns a handle to itself -/
def NoSelfAssignA (sched : List (Nat × AOp)) : Prop := ∀ t i, (t, AOp.assign i i) ∉ sched

namespace Blocks

/-- `n b` references, `d b` pending deletions (helper) -/
def Inv (B : Blocks) (n d : Nat → Nat) : Prop :=
  ∀ b, (b < B.next → d b ≤ 1 ∧ (d b = 1 → n b = 0) ∧ B.counts b = (if n b + d b = 0 then none else some (n b)) ∧
      ∃ k, B.life b = .create b :: List.replicate k (.use b) ++ if n b + d b = 0 then [.delete b] else []) ∧
    (B.next ≤ b → B.counts b = none ∧ n b = 0 ∧ d b = 0 ∧ B.life b = [])

theorem Inv.congr {B : Blocks} {n d n' d' : Nat → Nat} (h : Inv B n d) (hn : ∀ b, n' b = n b) (hd : ∀ b, d' b = d b) : Inv B n' d' := by
  intro b; rw [hn, hd]; exact h b

theorem Inv.lt {B : Blocks} {n d : Nat → Nat} (h : Inv B n d) {a : Nat} (ha : 0 < n a + d a) : a < B.next := by
  by_cases hlt : a < B.next
  · exact hlt
  · have := ((h a).2 (by omega)); omega

theorem Inv.count {B : Blocks} {n d : Nat → Nat} (h : Inv B n d) {a : Nat} (ha : 0 < n a + d a) : B.counts a = some (n a) := by
  have := ((h a).1 (h.lt ha)).2.2.1
  rwa [if_neg (by omega)] at this

open Shared (one)

theorem Inv.set {B : Blocks} {n d n' d' : Nat → Nat} (h : Inv B n d) {a c : Nat} (ha : 0 < n a + d a)
    (hc : c = n' a) (h1 : d' a ≤ 1) (h2 : d' a = 1 → n' a = 0) (h3 : n' a + d' a ≠ 0)
    (hn : ∀ b, b ≠ a → n' b = n b) (hd : ∀ b, b ≠ a → d' b = d b) : Inv (B.setCount a (some c)) n' d' := by
  intro b
  by_cases hb : b = a
  · subst hb
    have hlt := h.lt ha
    refine ⟨fun _ => ⟨h1, h2, ?_, ?_⟩, fun h' => absurd h' (show ¬ B.next ≤ b by omega)⟩
    · rw [if_neg h3]; simp [setCount, hc]
    · obtain ⟨k, hk⟩ := ((h b).1 hlt).2.2.2
      refine ⟨k, ?_⟩
      rw [if_neg (by omega)] at hk
      rw [if_neg h3]; exact hk
  · rw [hn b hb, hd b hb]
    have : (B.setCount a (some c)).counts b = B.counts b := by simp [setCount, hb]
    rw [this]; exact h b

theorem fetchAdd_ok {B : Blocks} {n d : Nat → Nat} (h : Inv B n d) (p : Option Nat) (hp : ∀ b, p = some b → 0 < n b) :
    ∃ B', B.fetchAdd p = some B' ∧ Inv B' (fun b => n b + one p b) d := by
  cases p with
  | none => exact ⟨B, rfl, h.congr (fun b => by simp [one]) fun _ => rfl⟩
  | some a =>
    have ha := hp a rfl
    have hd : d a = 0 := by
      have := (h a).1 (h.lt (by omega)); omega
    have hc := h.count (a := a) (by omega)
    refine ⟨B.setCount a (some (n a + 1)), by simp [fetchAdd, hc], h.set (by omega) ?_ (by omega) (by omega) ?_ ?_ (fun _ _ => rfl)⟩
    · simp [one]
    · simp [one]
    · intro b hb
      have : one (some a) b = 0 := by simp only [one]; rw [if_neg]; simp; omega
      omega

theorem fetchSub_ok {B : Blocks} {n d : Nat → Nat} (h : Inv B n d) (p : Option Nat) (hp : ∀ b, p = some b → 0 < n b) :
    ∃ B' last, B.fetchSub p = some (B', last) ∧ (last = true → p ≠ none) ∧
      Inv B' (fun b => n b - one p b) (fun b => d b + if last then one p b else 0) := by
  cases p with
  | none => exact ⟨B, false, rfl, by simp, h.congr (fun b => by simp [one]) fun _ => by simp⟩
  | some a =>
    have ha := hp a rfl
    have hd : d a = 0 := by
      have := (h a).1 (h.lt (by omega)); omega
    have hc := h.count (a := a) (by omega)
    obtain ⟨c, hc'⟩ : ∃ c, n a = c + 1 := ⟨n a - 1, by omega⟩
    rw [hc'] at hc
    have e1 : one (some a) a = 1 := by simp [one]
    refine ⟨B.setCount a (some c), c == 0, by simp [fetchSub, hc], by simp, h.set (by omega) ?_ ?_ ?_ ?_ ?_ ?_⟩
    · simp only [e1]; omega
    · simp only [e1, hd]; split <;> omega
    · simp only [e1, hd]
      by_cases h0 : c = 0
      · simp [h0, hc']
      · simp [h0]
    · simp only [e1, hd]
      by_cases h0 : c = 0
      · simp [h0]
      · have : (c == 0) = false := by simp [h0]
        simp only [this]; omega
    · intro b hb
      have : one (some a) b = 0 := by simp only [one]; rw [if_neg]; simp; omega
      simp only [this]; omega
    · intro b hb
      have : one (some a) b = 0 := by simp only [one]; rw [if_neg]; simp; omega
      simp only [this]; split <;> omega

theorem delete_ok {B : Blocks} {n d : Nat → Nat} (h : Inv B n d) {a : Nat} (ha : d a = 1) :
    ∃ B', B.delete a = some B' ∧ Inv B' n (fun b => d b - one (some a) b) := by
  have hc := h.count (a := a) (by omega)
  have hlt := h.lt (a := a) (by omega)
  have hn : n a = 0 := ((h a).1 hlt).2.1 ha
  refine ⟨{ B.setCount a none with log := B.log ++ [.delete a] }, by simp only [delete, hc], ?_⟩
  intro b
  by_cases hb : b = a
  · subst hb
    have e1 : one (some b) b = 1 := by simp [one]
    refine ⟨fun _ => ⟨show d b - one (some b) b ≤ 1 by omega, fun _ => hn, ?_, ?_⟩, fun h' => absurd h' (show ¬ B.next ≤ b by omega)⟩
    · simp [e1, hn, ha, setCount]
    · obtain ⟨k, hk⟩ := ((h b).1 hlt).2.2.2
      refine ⟨k, ?_⟩
      rw [if_neg (by omega)] at hk
      simp only [life] at hk
      have e : List.filter (fun e => e.block == b) [BEv.delete b] = [.delete b] := by simp [BEv.block]
      have e0 : n b + (d b - one (some b) b) = 0 := by omega
      simp only [life, List.filter_append, hk, e, e0, if_true, List.append_nil]
  · have e1 : one (some a) b = 0 := by simp only [one]; rw [if_neg]; simp; omega
    have hl : life { B.setCount a none with log := B.log ++ [.delete a] } b = B.life b := by
      have : (a == b) = false := by simp; omega
      simp [life, List.filter_append, BEv.block, this]
    simp only [e1, Nat.sub_zero, hl]
    simp only [setCount, if_neg hb]
    exact h b

theorem touch_alive {B : Blocks} {n d : Nat → Nat} (h : Inv B n d) {a : Nat} (ha : 0 < n a + d a) :
    ∃ B', B.touch a = some B' ∧ Inv B' n d := by
  have hc := h.count (a := a) (by omega)
  have hlt := h.lt (a := a) (by omega)
  refine ⟨{ B with log := B.log ++ [.use a] }, by simp only [touch, hc], ?_⟩
  intro b
  have hl : life { B with log := B.log ++ [.use a] } b = B.life b ++ if a = b then [.use b] else [] := by
    simp only [life, List.filter_append]
    congr 1
    by_cases h : a = b <;> simp [h, BEv.block]
  rw [hl]
  by_cases hb : a = b
  · subst hb
    obtain ⟨h1, h2, h3, k, hk⟩ := (h a).1 hlt
    refine ⟨fun _ => ⟨h1, h2, h3, k + 1, ?_⟩, fun h => absurd h (by simp; omega)⟩
    rw [hk, if_neg (by omega)]
    simp [List.replicate_succ']
  · simp only [if_neg hb, List.append_nil]
    exact h b

theorem touch_ok {B : Blocks} {n d : Nat → Nat} (h : Inv B n d) {a : Nat} (ha : 0 < n a) :
    ∃ B', B.touch a = some B' ∧ Inv B' n d := touch_alive h (by omega)

theorem create_ok {B : Blocks} {n d : Nat → Nat} (h : Inv B n d) :
    Inv B.create (fun b => n b + one (some B.next) b) d := by
  intro b
  have hl : life B.create b = B.life b ++ if B.next = b then [.create b] else [] := by
    simp only [life, create, List.filter_append]
    congr 1
    by_cases h : B.next = b <;> simp [h, BEv.block]
  rw [hl]
  by_cases hb : B.next = b
  · subst hb
    obtain ⟨h1, h2, h3, h4⟩ := (h B.next).2 (Nat.le_refl _)
    refine ⟨fun _ => ⟨by omega, by omega, by simp [create, one, h2], 0, by simp [one, h4]⟩, fun h => absurd h (by simp [create])⟩
  · have e1 : one (some B.next) b = 0 := by simp only [one]; rw [if_neg]; simp; omega
    have hb' : ¬ b = B.next := fun h => hb h.symm
    simp only [e1, if_neg hb, List.append_nil, Nat.add_zero]
    simp only [create, if_neg hb']
    exact ⟨fun h' => (h b).1 (by omega), fun h' => (h b).2 (by omega)⟩

end Blocks

namespace AThread
open Shared (one count_at count_set)

/-- position of the handle that does not count as a reference at this point (helper) -/
def skip (hs : List (Option Nat)) : Pc → Option Nat
  | .idle | .inUse _ => none
  | .copied => some (hs.length - 1)
  | .dropping i | .assigning i _ | .assigned i | .moving i _ => some i
  | .deleting _ k => skip hs k

/-- references of a thread to block `b` -/
def refs (th : AThread) (b : Nat) : Nat :=
  match skip th.hs th.pc with
  | none => th.hs.count (some b)
  | some i => (th.hs.eraseIdx i).count (some b)

def pend (th : AThread) (b : Nat) : Nat :=
  match th.pc with
  | .deleting a _ => one (some a) b
  | _ => 0

/-- the control points after a `decrement` -/
def After (hs : List (Option Nat)) : Pc → Prop
  | .dropping i => i < hs.length
  | .assigning i j => i ≠ j ∧ i < hs.length ∧ j < hs.length
  | .moving i j => i < hs.length ∧ j < hs.length
  | _ => False

def Ok (th : AThread) : Prop :=
  match th.pc with
  | .idle => True
  | .copied => ∃ l p, th.hs = l ++ [p] ∧ p ∈ l
  | .assigned i => ∃ j q, j ≠ i ∧ th.hs[j]? = some q ∧ th.hs[i]? = some q
  | .deleting _ k => After th.hs k
  | .inUse b => some b ∈ th.hs
  | pc => After th.hs pc

theorem after_ok {hs : List (Option Nat)} {k : Pc} (h : After hs k) : Ok ⟨hs, k⟩ := by
  cases k <;> first | exact h | exact h.elim

theorem get_some {hs : List (Option Nat)} {i : Nat} (h : i < hs.length) : ∃ p, hs[i]? = some p := ⟨hs[i], by simp [h]⟩

theorem count_pos {hs : List (Option Nat)} {i b : Nat} (h : hs[i]? = some (some b)) : 0 < hs.count (some b) := by
  rw [count_at h]; simp [one]; omega

/-- `decrement` keeps the bookkeeping right -/
theorem release_ok {B : Blocks} {th : AThread} {i : Nat} {k : Pc} {n0 d0 : Nat → Nat} (hpc : th.pc = .idle)
    (h : B.Inv (fun b => th.refs b + n0 b) (fun b => th.pend b + d0 b)) (hk : i < th.hs.length → After th.hs k)
    (hs : skip th.hs k = some i) (hp : ∀ b, pend ⟨th.hs, k⟩ b = 0) :
    ∃ B' th', th.release B i k = some (B', th') ∧ th'.Ok ∧ B'.Inv (fun b => th'.refs b + n0 b) (fun b => th'.pend b + d0 b) := by
  obtain ⟨hs', pc⟩ := th
  subst hpc
  have hr : ∀ b, refs ⟨hs', .idle⟩ b = hs'.count (some b) := fun _ => rfl
  have hpe : ∀ b, pend ⟨hs', .idle⟩ b = 0 := fun _ => rfl
  have hrk : ∀ b, refs ⟨hs', k⟩ b = (hs'.eraseIdx i).count (some b) := by
    intro b; simp only [refs]; rw [hs]
  simp only [release]
  cases hi : hs'[i]? with
  | none => exact ⟨B, _, rfl, trivial, h⟩
  | some p =>
    have hlt : i < hs'.length := by
      by_cases hlt : i < hs'.length
      · exact hlt
      · rw [List.getElem?_eq_none (by omega)] at hi; cases hi
    obtain ⟨B', last, e1, e2, e3⟩ := Blocks.fetchSub_ok h p (fun b hb => by
      rw [hb] at hi; have := count_pos hi; rw [hr]; omega)
    have hcnt := fun b => count_at hi b
    simp only [e1]
    cases hl : last with
    | false =>
      subst hl
      refine ⟨B', ⟨hs', k⟩, rfl, after_ok (hk hlt), e3.congr (fun b => ?_) (fun b => ?_)⟩
      · rw [hrk, hr, hcnt]; omega
      · rw [hp, hpe]; simp
    | true =>
      subst hl
      cases p with
      | none => exact absurd rfl (e2 rfl)
      | some a =>
        refine ⟨B', ⟨hs', .deleting a k⟩, rfl, hk hlt, e3.congr (fun b => ?_) (fun b => ?_)⟩
        · have : refs ⟨hs', .deleting a k⟩ b = refs ⟨hs', k⟩ b := rfl
          rw [this, hrk, hr, hcnt]; omega
        · have : pend ⟨hs', .deleting a k⟩ b = one (some a) b := rfl
          rw [this, hpe]; simp; omega

theorem eraseIdx_last (l : List (Option Nat)) (p) : (l ++ [p]).eraseIdx ((l ++ [p]).length - 1) = l := by
  rw [List.eraseIdx_append_of_length_le (by simp)]
  simp

theorem step_ok {B : Blocks} {th : AThread} {o : AOp} {n0 d0 : Nat → Nat} (hok : th.Ok)
    (h : B.Inv (fun b => th.refs b + n0 b) (fun b => th.pend b + d0 b)) (ho : ∀ i, o ≠ .assign i i) :
    ∃ B' th', th.step B o = some (B', th') ∧ th'.Ok ∧ B'.Inv (fun b => th'.refs b + n0 b) (fun b => th'.pend b + d0 b) := by
  obtain ⟨hs, pc⟩ := th
  cases pc with
  | idle =>
    have hr : ∀ b, refs ⟨hs, .idle⟩ b = hs.count (some b) := fun _ => rfl
    cases o with
    | create =>
      refine ⟨_, _, rfl, trivial, (Blocks.create_ok h).congr (fun b => ?_) (fun _ => rfl)⟩
      show List.count (some b) (hs ++ [some B.next]) + n0 b = hs.count (some b) + n0 b + one (some B.next) b
      rw [List.count_append, List.count_singleton]
      simp only [one]
      by_cases hb : B.next = b <;> simp [hb]; omega
    | copy i =>
      simp only [step]
      cases hi : hs[i]? with
      | none => exact ⟨_, _, rfl, trivial, h⟩
      | some p =>
        refine ⟨_, _, rfl, ⟨hs, p, rfl, List.mem_of_getElem? hi⟩, h.congr (fun b => ?_) (fun _ => rfl)⟩
        have : refs ⟨hs ++ [p], .copied⟩ b = hs.count (some b) := by
          simp only [refs, skip, eraseIdx_last]
        simp only [this, hr]
    | move i =>
      simp only [step]
      cases hi : hs[i]? with
      | none => exact ⟨_, _, rfl, trivial, h⟩
      | some p =>
        refine ⟨_, _, rfl, trivial, h.congr (fun b => ?_) (fun _ => rfl)⟩
        show List.count (some b) (hs.set i none ++ [p]) + n0 b = hs.count (some b) + n0 b
        rw [List.count_append, List.count_singleton, count_set hi]
        have : one p b ≤ hs.count (some b) := by rw [count_at hi]; omega
        have hn : one none b = 0 := by simp [one]
        have : (if (p == some b) = true then 1 else 0) = one p b := by
          by_cases hp : p = some b <;> simp [one, hp]
        omega
    | assign i j =>
      have hij : i ≠ j := fun e => ho i (by rw [e])
      simp only [step]
      by_cases hj : j < hs.length
      · rw [if_pos hj]
        exact release_ok rfl h (fun hi => ⟨hij, hi, hj⟩) rfl (fun _ => rfl)
      · rw [if_neg hj]; exact ⟨_, _, rfl, trivial, h⟩
    | moveAssign i j =>
      simp only [step]
      by_cases hj : j < hs.length
      · rw [if_pos hj]
        exact release_ok rfl h (fun hi => ⟨hi, hj⟩) rfl (fun _ => rfl)
      · rw [if_neg hj]; exact ⟨_, _, rfl, trivial, h⟩
    | drop i =>
      simp only [step]
      exact release_ok rfl h (fun hi => hi) rfl (fun _ => rfl)
    | use i =>
      simp only [step]
      cases hi : hs[i]? with
      | none => exact ⟨_, _, rfl, trivial, h⟩
      | some p =>
        cases p with
        | none => exact ⟨_, _, rfl, trivial, h⟩
        | some b =>
          obtain ⟨B', e1, e2⟩ := Blocks.touch_ok h (a := b) (by have := count_pos hi; rw [hr]; omega)
          refine ⟨B', ⟨hs, .inUse b⟩, by simp [e1], List.mem_of_getElem? hi, e2.congr (fun _ => rfl) (fun _ => rfl)⟩
    | send i u => exact ⟨_, _, rfl, trivial, h⟩
  | copied =>
    obtain ⟨l, p, e, hm⟩ := hok
    have e : hs = l ++ [p] := e
    subst e
    have hr : ∀ b, refs ⟨l ++ [p], .copied⟩ b = l.count (some b) := by
      intro b; simp only [refs, skip, eraseIdx_last]
    obtain ⟨B', e1, e2⟩ := Blocks.fetchAdd_ok h p (fun b hb => by
      subst hb; have := List.count_pos_iff.2 hm; rw [hr]; omega)
    refine ⟨B', ⟨l ++ [p], .idle⟩, by simp [step, e1], trivial, e2.congr (fun b => ?_) (fun _ => rfl)⟩
    show List.count (some b) (l ++ [p]) + n0 b = _
    rw [hr, List.count_append, List.count_singleton]
    have : (if (p == some b) = true then 1 else 0) = one p b := by
      by_cases hp : p = some b <;> simp [one, hp]
    omega
  | dropping i => exact ⟨_, _, rfl, trivial, h⟩
  | assigning i j =>
    obtain ⟨hij, hi, hj⟩ : i ≠ j ∧ i < hs.length ∧ j < hs.length := hok
    obtain ⟨q, hq⟩ := get_some hj
    obtain ⟨p, hp⟩ := get_some hi
    refine ⟨B, ⟨hs.set i q, .assigned i⟩, ?_, ⟨j, q, fun e => hij e.symm, ?_, ?_⟩, h.congr (fun b => ?_) (fun _ => rfl)⟩
    · show (match hs[j]? with
        | none => some (B, (⟨hs, .idle⟩ : AThread))
        | some q => some (B, ⟨hs.set i q, .assigned i⟩)) = _
      rw [hq]
    · rw [List.getElem?_set_ne hij]; exact hq
    · have hi : i < hs.length := hi
      simp [hi]
    · have h1 : refs ⟨hs.set i q, .assigned i⟩ b = ((hs.set i q).eraseIdx i).count (some b) := rfl
      have h2 : refs ⟨hs, .assigning i j⟩ b = (hs.eraseIdx i).count (some b) := rfl
      have h3 := count_at (l := hs.set i q) (i := i) (p := q) (by have hi : i < hs.length := hi; simp [hi]) b
      have h4 := count_at hp b
      have h5 := count_set hp q b
      rw [h1, h2]; omega
  | assigned i =>
    obtain ⟨j, q, hij, hj, hi⟩ := hok
    have hj : hs[j]? = some q := hj
    have hi : hs[i]? = some q := hi
    have hr : ∀ b, refs ⟨hs, .assigned i⟩ b = (hs.eraseIdx i).count (some b) := fun _ => rfl
    have hpos : ∀ b, q = some b → 0 < (hs.eraseIdx i).count (some b) := by
      intro b hb
      have h2 : (hs.set i none)[j]? = some q := by rw [List.getElem?_set_ne (Ne.symm hij)]; exact hj
      have h3 := count_at h2 b
      have h4 := count_set hi none b
      have h5 : one none b = 0 := by simp [one]
      have h6 : one q b = 1 := by simp [one, hb]
      have h7 := count_at hi b
      omega
    obtain ⟨B', e1, e2⟩ := Blocks.fetchAdd_ok h q (fun b hb => by rw [hr]; have := hpos b hb; omega)
    refine ⟨B', ⟨hs, .idle⟩, by simp [step, hi, e1], trivial, e2.congr (fun b => ?_) (fun _ => rfl)⟩
    show hs.count (some b) + n0 b = _
    rw [hr, count_at hi]; omega
  | moving i j =>
    obtain ⟨hi, hj⟩ : i < hs.length ∧ j < hs.length := hok
    obtain ⟨q, hq⟩ := get_some hj
    obtain ⟨p, hp⟩ := get_some hi
    refine ⟨B, ⟨(hs.set i q).set j none, .idle⟩, ?_, trivial, h.congr (fun b => ?_) (fun _ => rfl)⟩
    · show (match hs[j]? with
        | none => some (B, (⟨hs, .idle⟩ : AThread))
        | some q => some (B, ⟨(hs.set i q).set j none, .idle⟩)) = _
      rw [hq]
    · show ((hs.set i q).set j none).count (some b) + n0 b = (hs.eraseIdx i).count (some b) + n0 b
      have hn : one none b = 0 := by simp [one]
      have h2 : (hs.set i q)[j]? = some q := by
        by_cases hij : i = j
        · subst hij
          have hi : i < hs.length := hi
          simp [hi]
        · rw [List.getElem?_set_ne hij]; exact hq
      have h4 := count_at hp b
      rw [count_set h2, count_set hp]
      omega
  | deleting a k =>
    have hd : ∀ b, pend ⟨hs, .deleting a k⟩ b = one (some a) b := fun _ => rfl
    have ha : one (some a) a = 1 := by simp [one]
    have hpend : pend ⟨hs, .deleting a k⟩ a + d0 a = 1 := by
      have h0 := h.lt (a := a) (by rw [hd]; omega)
      have : pend ⟨hs, .deleting a k⟩ a + d0 a ≤ 1 := ((h a).1 h0).1
      rw [hd] at this ⊢; omega
    obtain ⟨B', e1, e2⟩ := Blocks.delete_ok h hpend
    refine ⟨B', ⟨hs, k⟩, by simp [step, e1], after_ok hok, e2.congr (fun _ => rfl) (fun b => ?_)⟩
    have : pend ⟨hs, k⟩ b = 0 := by
      have hk : After hs k := hok
      cases k <;> first | rfl | exact hk.elim
    rw [hd, this]; omega
  | inUse b =>
    have hr : ∀ b', refs ⟨hs, .inUse b⟩ b' = hs.count (some b') := fun _ => rfl
    obtain ⟨B', e1, e2⟩ := Blocks.touch_ok h (a := b) (by have := List.count_pos_iff.2 hok; rw [hr]; show 0 < hs.count (some b) + n0 b; have : 0 < hs.count (some b) := this; omega)
    exact ⟨B', ⟨hs, .idle⟩, by simp [step, e1], trivial, e2.congr (fun _ => rfl) (fun _ => rfl)⟩

end AThread

namespace Atomic
open Shared (one count_at)

theorem sum_perm {l l' : List Nat} (h : l.Perm l') : l.sum = l'.sum := by
  induction h with
  | nil => rfl
  | cons _ _ ih => simp [ih]
  | swap => simp; omega
  | trans _ _ i1 i2 => exact i1.trans i2

theorem sum_zero (l : List AThread) : (l.map fun _ => 0).sum = 0 := by
  induction l with
  | nil => rfl
  | cons a l ih => simpa using ih

theorem sum_at {l : List AThread} {t : Nat} {th : AThread} (h : l[t]? = some th) (f : AThread → Nat) :
    (l.map f).sum = f th + ((l.eraseIdx t).map f).sum := by
  rw [sum_perm ((perm_eraseIdx h).map f)]; simp

theorem sum_set {l : List AThread} {t : Nat} {th : AThread} (h : l[t]? = some th) (th' : AThread) (f : AThread → Nat) :
    ((l.set t th').map f).sum = f th' + ((l.eraseIdx t).map f).sum := by
  rw [sum_perm ((perm_set h).map f)]; simp

/-- invariant of the whole system (helper) -/
def Inv (s : Atomic) : Prop :=
  (∀ th ∈ s.threads, th.Ok) ∧ s.blk.Inv (fun b => (s.threads.map (·.refs b)).sum) (fun b => (s.threads.map (·.pend b)).sum)

theorem step_ok {s : Atomic} (h : Inv s) (t : Nat) (o : AOp) (ho : ∀ i, o ≠ .assign i i) :
    ∃ s', s.step t o = some s' ∧ Inv s' ∧ s'.threads.length = s.threads.length := by
  obtain ⟨h1, h2⟩ := h
  simp only [step]
  cases ht : s.threads[t]? with
  | none => exact ⟨s, rfl, ⟨h1, h2⟩, rfl⟩
  | some th =>
    have hth := h1 th (List.mem_of_getElem? ht)
    have hmem : ∀ th', (∀ x, x ∈ s.threads.set t th' → x = th' ∨ x ∈ s.threads) := by
      intro th' x hx
      rcases List.mem_or_eq_of_mem_set hx with h | h
      · exact Or.inr h
      · exact Or.inl h
    have main : ∃ s', ((th.step s.blk o).map fun (B', th') => (⟨B', s.threads.set t th'⟩ : Atomic)) = some s' ∧ Inv s' ∧
        s'.threads.length = s.threads.length := by
      obtain ⟨B', th', e1, e2, e3⟩ := AThread.step_ok (n0 := fun b => ((s.threads.eraseIdx t).map (·.refs b)).sum)
        (d0 := fun b => ((s.threads.eraseIdx t).map (·.pend b)).sum) hth
        (h2.congr (fun b => (sum_at ht (·.refs b)).symm) (fun b => (sum_at ht (·.pend b)).symm)) ho
      refine ⟨⟨B', s.threads.set t th'⟩, by rw [e1]; rfl, ⟨?_, ?_⟩, by simp⟩
      · intro x hx
        rcases hmem th' x hx with h | h
        · rw [h]; exact e2
        · exact h1 x h
      · exact e3.congr (fun b => sum_set ht th' (·.refs b)) (fun b => sum_set ht th' (·.pend b))
    obtain ⟨hs, pc⟩ := th
    cases pc with
    | idle =>
      cases o with
      | send i u =>
        show ∃ s', (match hs[i]?, s.threads[u]? with
          | some p, some tu =>
            if u = t ∨ tu.pc ≠ .idle then some s
            else some { s with threads := (s.threads.set t ⟨hs.eraseIdx i, .idle⟩).set u { tu with hs := tu.hs ++ [p] } }
          | _, _ => some s) = some s' ∧ _
        cases hi : hs[i]? with
        | none => exact ⟨s, rfl, ⟨h1, h2⟩, rfl⟩
        | some p =>
          cases hu : s.threads[u]? with
          | none => exact ⟨s, rfl, ⟨h1, h2⟩, rfl⟩
          | some tu =>
            obtain ⟨hs2, pc2⟩ := tu
            by_cases hc : u = t ∨ pc2 ≠ .idle
            · exact ⟨s, by simp only; rw [if_pos hc], ⟨h1, h2⟩, rfl⟩
            · have hut : u ≠ t := fun e => hc (Or.inl e)
              have hpc2 : pc2 = .idle := by
                by_cases e : pc2 = .idle
                · exact e
                · exact absurd (Or.inr e) hc
              subst hpc2
              refine ⟨_, by simp only; rw [if_neg hc], ⟨?_, ?_⟩, by simp⟩
              · intro x hx
                rcases List.mem_or_eq_of_mem_set hx with h | h
                · rcases hmem _ x h with h | h
                  · rw [h]; trivial
                  · exact h1 x h
                · rw [h]; trivial
              · have hu' : (s.threads.set t ⟨hs.eraseIdx i, .idle⟩)[u]? = some ⟨hs2, .idle⟩ := by
                  rw [List.getElem?_set_ne (Ne.symm hut)]; exact hu
                have key : ∀ f : AThread → Nat, f ⟨hs.eraseIdx i, .idle⟩ + f ⟨hs2 ++ [p], .idle⟩ = f ⟨hs, .idle⟩ + f ⟨hs2, .idle⟩ →
                    (((s.threads.set t ⟨hs.eraseIdx i, .idle⟩).set u ⟨hs2 ++ [p], .idle⟩).map f).sum = (s.threads.map f).sum := by
                  intro f hf
                  have a1 := sum_set hu' ⟨hs2 ++ [p], .idle⟩ f
                  have a2 := sum_at hu' f
                  have a3 := sum_set ht ⟨hs.eraseIdx i, .idle⟩ f
                  have a4 := sum_at ht f
                  omega
                refine h2.congr (fun b => key _ ?_) (fun b => key _ rfl)
                show (hs.eraseIdx i).count (some b) + (hs2 ++ [p]).count (some b) = hs.count (some b) + hs2.count (some b)
                rw [List.count_append, List.count_singleton, count_at hi]
                have : (if (p == some b) = true then 1 else 0) = one p b := by
                  by_cases hp : p = some b <;> simp [one, hp]
                omega
      | _ => exact main
    | _ => cases o <;> exact main

theorem run_ok {s : Atomic} (h : Inv s) (sched : List (Nat × AOp)) (ho : NoSelfAssignA sched) :
    ∃ s', s.run sched = some s' ∧ Inv s' := by
  induction sched generalizing s with
  | nil => exact ⟨s, rfl, h⟩
  | cons x os ih =>
    obtain ⟨t, o⟩ := x
    obtain ⟨s1, e1, h1, _⟩ := step_ok h t o (fun i e => ho t i (by simp [e]))
    obtain ⟨s2, e2, h2⟩ := ih h1 (fun t i hm => ho t i (List.mem_cons_of_mem _ hm))
    exact ⟨s2, by simp only [run, e1]; exact e2, h2⟩

theorem start_inv (n : Nat) : Inv (start n) := by
  refine ⟨fun th hth => ?_, fun b => ⟨fun h => absurd h (by simp [start]), fun _ => ?_⟩⟩
  · rw [(List.mem_replicate.1 hth).2]; trivial
  · have h0 : ∀ f : AThread → Nat, f ⟨[], .idle⟩ = 0 → ((List.replicate n (⟨[], .idle⟩ : AThread)).map f).sum = 0 := by
      intro f hf; simp [hf]
    exact ⟨rfl, h0 _ rfl, h0 _ rfl, rfl⟩

end Atomic

/-- **C26.** Any number of threads copy, move, assign, destroy, hand over and use `atomic_shared` handles, no
thread assigning a handle to itself. In every interleaving of their atomic steps, no step touches a deleted
block. Every block is created once, then used, and deleted at most once, after every use. Whenever no thread
is inside an operation, a block has been deleted exactly if no handle refers to it, and otherwise its counter
is the number of handles of all threads that refer to it. -/
theorem C26_atomic_shared_safe (n : Nat) (sched : List (Nat × AOp)) (hs : NoSelfAssignA sched) :
    ∃ s, (Atomic.start n).run sched = some s ∧ ∀ b < s.blk.next,
      (∃ k, s.blk.life b = .create b :: List.replicate k (.use b) ∨
        s.blk.life b = .create b :: List.replicate k (.use b) ++ [.delete b]) ∧
      (s.Quiet → (BEv.delete b ∈ s.blk.life b ↔ s.handles b = 0) ∧
        (s.handles b ≠ 0 → s.blk.counts b = some (s.handles b))) := by
  obtain ⟨s, e, h1, h2⟩ := Atomic.run_ok (Atomic.start_inv n) sched hs
  refine ⟨s, e, fun b hb => ?_⟩
  have hb2 := (h2 b).1 hb
  obtain ⟨g1, g2, g3, k, g4⟩ := hb2
  refine ⟨⟨k, ?_⟩, fun hq => ?_⟩
  · rw [g4]; split
    · exact Or.inr rfl
    · exact Or.inl (by simp)
  · have hn : (s.threads.map (·.refs b)).sum = s.handles b := by
      simp only [Atomic.handles]
      congr 1
      apply List.map_congr_left
      intro th hth
      have := hq th hth
      obtain ⟨hs, pc⟩ := th
      subst this; rfl
    have hd : (s.threads.map (·.pend b)).sum = 0 := by
      have : s.threads.map (·.pend b) = s.threads.map (fun _ => 0) := by
        apply List.map_congr_left
        intro th hth
        have := hq th hth
        obtain ⟨hs, pc⟩ := th
        subst this; rfl
      rw [this]; exact Atomic.sum_zero _
    refine ⟨?_, fun h => ?_⟩
    · by_cases h0 : s.handles b = 0
      · rw [if_pos (by dsimp only; rw [hn, hd]; exact h0)] at g4
        rw [g4]; simp [h0]
      · rw [if_neg (by dsimp only; rw [hn, hd]; exact h0)] at g4
        rw [g4]; simp [h0]
    · rw [if_neg (by dsimp only; rw [hn, hd]; exact h)] at g3
      rw [g3]; exact congrArg some hn

/-- A thread that refers to a block through a handle it is not just giving up can use it: at every point of
every schedule a call through the handle of an idle thread finds the block alive, even while other threads are
in the middle of their operations. -/
theorem C26_use_finds_block (n : Nat) (sched : List (Nat × AOp)) (hs : NoSelfAssignA sched) (s : Atomic)
    (hrun : (Atomic.start n).run sched = some s) (t i b : Nat) (th : AThread) (ht : s.threads[t]? = some th)
    (hpc : th.pc = .idle) (hi : th.hs[i]? = some (some b)) :
    ∃ c, s.blk.counts b = some (c + 1) ∧ BEv.delete b ∉ s.blk.life b := by
  obtain ⟨s', e, h1, h2⟩ := Atomic.run_ok (Atomic.start_inv n) sched hs
  rw [hrun] at e; cases e
  have hpos : 0 < (s.threads.map (·.refs b)).sum := by
    rw [Atomic.sum_at ht]
    obtain ⟨hs, pc⟩ := th
    subst hpc
    have : 0 < hs.count (some b) := AThread.count_pos hi
    have h' : AThread.refs ⟨hs, .idle⟩ b = hs.count (some b) := rfl
    rw [h']; omega
  have hlt := h2.lt (a := b) (Nat.lt_of_lt_of_le hpos (Nat.le_add_right _ _))
  obtain ⟨_, _, _, k, g4⟩ := (h2 b).1 hlt
  refine ⟨(s.threads.map (·.refs b)).sum - 1, ?_, ?_⟩
  · rw [h2.count (Nat.lt_of_lt_of_le hpos (Nat.le_add_right _ _))]; congr 1; omega
  · dsimp only at g4
    rw [g4, if_neg (by omega)]; simp

/-! ### Non-vacuity -/

/-- Two threads share a block; both give it up with their `fetch_sub`s interleaved, the second one deletes it. -/
def demoSched : List (Nat × AOp) :=
  [(0, .create), (0, .copy 0), (0, .create), (0, .send 0 1), (1, .use 0), (0, .drop 0), (1, .create), (1, .drop 0),
   (0, .create), (1, .create), (1, .create)]

example : NoSelfAssignA demoSched := by
  intro t i h
  simp [demoSched] at h

example : ((Atomic.start 2).run demoSched).map (fun s => (s.threads, s.blk.life 0)) =
    some ([⟨[], .idle⟩, ⟨[], .idle⟩], [.create 0, .use 0, .use 0, .delete 0]) := by decide

end KTL
