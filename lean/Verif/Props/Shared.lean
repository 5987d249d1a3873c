import Verif.Conc.Shared
import Verif.Spec.History

/- C24, C25: reference counting of `shared`. -/
namespace KTL

/-- the block an event is about -/
def BEv.block : BEv → Nat
  | .create b | .use b | .delete b => b

/-- the life of block `b` so far -/
def Shared.life (s : Shared) (b : Nat) : List BEv := s.log.filter fun e => e.block == b

/-- how many handles refer to block `b` -/
def Shared.handles (s : Shared) (b : Nat) : Nat := s.ptrs.count (some b)

/-- The program never assigns a handle to itself. -/
def NoSelfAssign (ops : List SOp) : Prop := ∀ i, SOp.assign i i ∉ ops

namespace Shared

/-- invariant with the number of handles per block made explicit (helper) -/
def Inv (s : Shared) (h : Nat → Nat) : Prop :=
  ∀ b, (b < s.next → s.counts b = (if h b = 0 then none else some (h b)) ∧
      ∃ k, s.life b = .create b :: List.replicate k (.use b) ++ if h b = 0 then [.delete b] else []) ∧
    (s.next ≤ b → s.counts b = none ∧ h b = 0 ∧ s.life b = [])

theorem inv_congr {s : Shared} {h h' : Nat → Nat} (hi : Inv s h) (e : ∀ b, h' b = h b) : Inv s h' := by
  intro b; rw [e b]; exact hi b

theorem inv_ptrs {s : Shared} {h : Nat → Nat} (hi : Inv s h) (l) : Inv { s with ptrs := l } h := hi

/-- number of handles in `l` equal to `p`, if `p` is the block `b` -/
def one (p : Option Nat) (b : Nat) : Nat := if p = some b then 1 else 0

theorem inc_ok {s : Shared} {h : Nat → Nat} (hi : Inv s h) (p : Option Nat) (hp : ∀ b, p = some b → 0 < h b) :
    ∃ s', s.increment p = some s' ∧ Inv s' (fun b => h b + one p b) ∧ s'.ptrs = s.ptrs := by
  cases p with
  | none => exact ⟨s, rfl, inv_congr hi (fun b => by simp [one]), rfl⟩
  | some a =>
    have ha := hp a rfl
    have hlt : a < s.next := by
      by_cases hlt : a < s.next
      · exact hlt
      · have := ((hi a).2 (by omega)).2.1; omega
    have hc := ((hi a).1 hlt).1
    rw [if_neg (by omega)] at hc
    refine ⟨s.setCount a (some (h a + 1)), by simp [increment, hc], ?_, rfl⟩
    intro b
    by_cases hb : b = a
    · subst hb
      refine ⟨fun _ => ⟨?_, ?_⟩, fun h' => absurd h' (show ¬ s.next ≤ b by omega)⟩
      · simp [setCount, one]
      · obtain ⟨k, hk⟩ := ((hi b).1 hlt).2
        refine ⟨k, ?_⟩
        have e : h b + one (some b) b ≠ 0 := by omega
        rw [if_neg (by omega)] at hk
        simp only [if_neg e]
        exact hk
    · have hb' : one (some a) b = 0 := by simp only [one]; rw [if_neg]; simp; omega
      have hcnt : (s.setCount a (some (h a + 1))).counts b = s.counts b := by simp [setCount, hb]
      simp only [hb', Nat.add_zero]
      rw [hcnt]
      exact hi b

theorem dec_ok {s : Shared} {h : Nat → Nat} (hi : Inv s h) (p : Option Nat) (hp : ∀ b, p = some b → 0 < h b) :
    ∃ s', s.decrement p = some s' ∧ Inv s' (fun b => h b - one p b) ∧ s'.ptrs = s.ptrs := by
  cases p with
  | none => exact ⟨s, rfl, inv_congr hi (fun b => by simp [one]), rfl⟩
  | some a =>
    have ha := hp a rfl
    have hlt : a < s.next := by
      by_cases hlt : a < s.next
      · exact hlt
      · have := ((hi a).2 (by omega)).2.1; omega
    have hc := ((hi a).1 hlt).1
    rw [if_neg (by omega)] at hc
    by_cases h1 : h a = 1
    · refine ⟨{ s.setCount a none with log := s.log ++ [.delete a] }, by simp [decrement, hc, h1], ?_, rfl⟩
      intro b
      by_cases hb : b = a
      · subst hb
        refine ⟨fun _ => ⟨?_, ?_⟩, fun h' => absurd h' (show ¬ s.next ≤ b by omega)⟩
        · simp [setCount, one, h1]
        · obtain ⟨k, hk⟩ := ((hi b).1 hlt).2
          refine ⟨k, ?_⟩
          rw [if_neg (by omega)] at hk
          simp only [life] at hk
          have e : List.filter (fun e => e.block == b) [BEv.delete b] = [.delete b] := by simp [BEv.block]
          have e0 : h b - one (some b) b = 0 := by simp [one, h1]
          simp only [life, List.filter_append, hk, e, e0, if_true, List.append_nil]
      · have hb' : one (some a) b = 0 := by simp only [one]; rw [if_neg]; simp; omega
        have hl : life { s.setCount a none with log := s.log ++ [.delete a] } b = s.life b := by
          have : (a == b) = false := by simp; omega
          simp [life, List.filter_append, BEv.block, this]
        simp only [hb', Nat.sub_zero, hl]
        simp only [setCount, hb, if_false]
        exact hi b
    · refine ⟨s.setCount a (some (h a - 1)), by simp [decrement, hc, h1], ?_, rfl⟩
      intro b
      by_cases hb : b = a
      · subst hb
        refine ⟨fun _ => ⟨?_, ?_⟩, fun h' => absurd h' (show ¬ s.next ≤ b by omega)⟩
        · simp only [setCount, one, if_true]; rw [if_neg (by omega)]
        · obtain ⟨k, hk⟩ := ((hi b).1 hlt).2
          refine ⟨k, ?_⟩
          have : h b - one (some b) b ≠ 0 := by simp only [one, if_true]; omega
          rw [if_neg (by omega)] at hk
          simp only [if_neg this]
          exact hk
      · have hb' : one (some a) b = 0 := by simp only [one]; rw [if_neg]; simp; omega
        have hcnt : (s.setCount a (some (h a - 1))).counts b = s.counts b := by simp [setCount, hb]
        simp only [hb', Nat.sub_zero]
        rw [hcnt]
        exact hi b

theorem count_at {l : List (Option Nat)} {i : Nat} {p : Option Nat} (h : l[i]? = some p) (b : Nat) :
    l.count (some b) = one p b + (l.eraseIdx i).count (some b) := by
  rw [(perm_eraseIdx h).count_eq, List.count_cons]
  by_cases hp : p = some b <;> simp [one, hp, Nat.add_comm]

theorem count_set {l : List (Option Nat)} {i : Nat} {p : Option Nat} (h : l[i]? = some p) (q : Option Nat) (b : Nat) :
    (l.set i q).count (some b) = l.count (some b) - one p b + one q b := by
  rw [count_at h, (perm_set h).count_eq, List.count_cons]
  by_cases hp : q = some b <;> simp [one, hp] <;> omega

theorem step_ok {s : Shared} (hi : Inv s s.handles) (o : SOp) (ho : ∀ i, o ≠ .assign i i) :
    ∃ s', s.step o = some s' ∧ Inv s' s'.handles := by
  have hpos : ∀ (i : Nat) p, s.ptrs[i]? = some p → ∀ b, p = some b → 0 < s.handles b := by
    intro i p h b hb
    rw [handles, count_at h, hb]; simp [one]; omega
  cases o with
  | create =>
    refine ⟨_, rfl, ?_⟩
    intro b
    have hn := hi s.next
    have hh : Shared.handles ⟨fun x => if x = s.next then some 1 else s.counts x, s.next + 1, s.ptrs ++ [some s.next], s.log ++ [.create s.next]⟩ b =
      s.handles b + if s.next = b then 1 else 0 := by
      simp only [handles, List.count_append, List.count_singleton]
      congr 1
      by_cases h : s.next = b <;> simp [h]
    have hl : Shared.life ⟨fun x => if x = s.next then some 1 else s.counts x, s.next + 1, s.ptrs ++ [some s.next], s.log ++ [.create s.next]⟩ b =
      s.life b ++ if s.next = b then [.create b] else [] := by
      simp only [life, List.filter_append]
      congr 1
      by_cases h : s.next = b <;> simp [h, BEv.block]
    rw [hh, hl]
    by_cases hb : b = s.next
    · subst hb
      obtain ⟨h1, h2, h3⟩ := hn.2 (Nat.le_refl _)
      refine ⟨fun _ => ⟨by simp [h2], 0, by simp [h2, h3]⟩, fun h => absurd h (by simp)⟩
    · have hb' : ¬ s.next = b := fun h => hb h.symm
      simp only [if_neg hb', if_neg hb, Nat.add_zero, List.append_nil]
      exact ⟨fun h => (hi b).1 (by omega), fun h => (hi b).2 (by omega)⟩
  | copy i =>
    simp only [step]
    cases h : s.ptrs[i]? with
    | none => exact ⟨s, rfl, hi⟩
    | some p =>
      obtain ⟨s', e1, e2, e3⟩ := inc_ok (inv_ptrs hi (s.ptrs ++ [p])) p (hpos i p h)
      refine ⟨s', e1, inv_congr e2 (fun b => ?_)⟩
      simp only [handles, e3, List.count_append, List.count_singleton]
      congr 1
      by_cases hp : p = some b <;> simp [one, hp]
  | move i =>
    simp only [step]
    cases h : s.ptrs[i]? with
    | none => exact ⟨s, rfl, hi⟩
    | some p =>
      refine ⟨_, rfl, inv_congr (inv_ptrs hi _) (fun b => ?_)⟩
      simp only [handles, List.count_append, List.count_singleton, count_set h]
      have : one p b ≤ s.ptrs.count (some b) := by rw [count_at h]; omega
      have hn : one none b = 0 := by simp [one]
      have : (if (p == some b) = true then 1 else 0) = one p b := by
        by_cases hp : p = some b <;> simp [one, hp]
      omega
  | assign i j =>
    simp only [step]
    cases h : s.ptrs[i]? with
    | none => exact ⟨s, rfl, hi⟩
    | some p =>
      cases h' : s.ptrs[j]? with
      | none => exact ⟨s, rfl, hi⟩
      | some q =>
        have hij : i ≠ j := fun e => ho i (by rw [e])
        obtain ⟨s1, e1, e2, e3⟩ := dec_ok hi p (hpos i p h)
        have hq : ∀ b, q = some b → 0 < s.handles b - one p b := by
          intro b hb
          have h2 : (s.ptrs.set i none)[j]? = some q := by rw [List.getElem?_set_ne hij]; exact h'
          have h3 := count_at h2 b
          have h4 := count_set h none b
          have h5 : one none b = 0 := by simp [one]
          have h6 : one q b = 1 := by simp [one, hb]
          simp only [handles]; omega
        obtain ⟨s2, f1, f2, f3⟩ := inc_ok (inv_ptrs e2 (s1.ptrs.set i q)) q hq
        refine ⟨s2, by simp only [e1]; exact f1, inv_congr f2 (fun b => ?_)⟩
        rw [handles, f3]
        simp only [e3, count_set h, handles]
  | moveAssign i j =>
    simp only [step]
    cases h : s.ptrs[i]? with
    | none => exact ⟨s, rfl, hi⟩
    | some p =>
      cases h' : s.ptrs[j]? with
      | none => exact ⟨s, rfl, hi⟩
      | some q =>
        obtain ⟨s1, e1, e2, e3⟩ := dec_ok hi p (hpos i p h)
        refine ⟨_, by simp only [e1]; rfl, inv_congr (inv_ptrs e2 _) (fun b => ?_)⟩
        simp only [handles, e3]
        have hn : one none b = 0 := by simp [one]
        have h2 : (s.ptrs.set i q)[j]? = some q := by
          by_cases hij : i = j
          · subst hij
            have : i < s.ptrs.length := by
              by_cases hlt : i < s.ptrs.length
              · exact hlt
              · rw [List.getElem?_eq_none (by omega)] at h; cases h
            simp [this]
          · rw [List.getElem?_set_ne hij]; exact h'
        rw [count_set h2, count_set h]
        omega
  | drop i =>
    simp only [step]
    cases h : s.ptrs[i]? with
    | none => exact ⟨s, rfl, hi⟩
    | some p =>
      obtain ⟨s1, e1, e2, e3⟩ := dec_ok hi p (hpos i p h)
      refine ⟨_, by simp only [e1]; rfl, inv_congr (inv_ptrs e2 _) (fun b => ?_)⟩
      simp only [handles, e3]
      rw [count_at h]; omega
  | use i =>
    simp only [step]
    cases h : s.ptrs[i]? with
    | none => exact ⟨s, rfl, hi⟩
    | some p =>
      cases p with
      | none => exact ⟨s, rfl, hi⟩
      | some a =>
        have ha := hpos i _ h a rfl
        have hlt : a < s.next := by
          by_cases hlt : a < s.next
          · exact hlt
          · have := ((hi a).2 (by omega)).2.1; omega
        have hc := ((hi a).1 hlt).1
        rw [if_neg (by omega)] at hc
        refine ⟨_, by simp only [hc]; rfl, ?_⟩
        intro b
        have hh : Shared.handles { s with log := s.log ++ [.use a] } b = s.handles b := rfl
        have hl : Shared.life { s with log := s.log ++ [.use a] } b = s.life b ++ if a = b then [.use b] else [] := by
          simp only [life, List.filter_append]
          congr 1
          by_cases h : a = b <;> simp [h, BEv.block]
        rw [hh, hl]
        by_cases hb : a = b
        · subst hb
          refine ⟨fun _ => ⟨((hi a).1 hlt).1, ?_⟩, fun h => absurd h (by simp; omega)⟩
          obtain ⟨k, hk⟩ := ((hi a).1 hlt).2
          refine ⟨k + 1, ?_⟩
          rw [hk, if_neg (by omega)]
          simp [List.replicate_succ']
        · simp only [if_neg hb, List.append_nil]
          exact hi b

theorem run_ok {s : Shared} (hi : Inv s s.handles) (ops : List SOp) (hops : NoSelfAssign ops) :
    ∃ s', s.run ops = some s' ∧ Inv s' s'.handles := by
  induction ops generalizing s with
  | nil => exact ⟨s, rfl, hi⟩
  | cons o os ih =>
    obtain ⟨s1, e1, h1⟩ := step_ok hi o (fun i h => hops i (by simp [h]))
    obtain ⟨s2, e2, h2⟩ := ih h1 (fun i h => hops i (List.mem_cons_of_mem _ h))
    exact ⟨s2, by simp only [run, e1]; exact e2, h2⟩

end Shared

/-- **C24.** Take any program that creates, copies, moves, assigns, drops and uses `shared` handles without
assigning a handle to itself. It never touches a deleted block. At every moment, for every block made so far:
its counter is the number of handles that refer to it; and its life is: created once, then used, and deleted —
once, as the last event — if and only if no handle refers to it. -/
theorem C24_reference_counts_exact (ops : List SOp) (hops : NoSelfAssign ops) :
    ∃ s, Shared.empty.run ops = some s ∧ ∀ b < s.next,
      s.counts b = (if s.handles b = 0 then none else some (s.handles b)) ∧
      ∃ k, s.life b = .create b :: List.replicate k (.use b) ++ if s.handles b = 0 then [.delete b] else [] := by
  obtain ⟨s, h1, h2⟩ := Shared.run_ok (s := Shared.empty) (fun b => ⟨fun h => absurd h (by simp [Shared.empty]), fun _ => ⟨rfl, rfl, rfl⟩⟩) ops hops
  exact ⟨s, h1, fun b hb => (h2 b).1 hb⟩

/-- **C25 is false**: `a = a` on the only handle of a block deletes the block and then increments the counter
in the freed memory (`shared.h:94-104` has no check for self-assignment). -/
theorem C25_false : Shared.empty.run [.create, .assign 0 0] = none := by decide

/-- **C25, what does hold.** In every state a program without self-assignment can reach, `h = h` on a handle
whose block has another handle, or on a null handle, changes nothing.

Missing from the full statement: the only handle of a block, see `C25_false`. -/
theorem C25_self_assign_shared_partial (ops : List SOp) (hops : NoSelfAssign ops) (s : Shared)
    (hs : Shared.empty.run ops = some s) (i : Nat) (p : Option Nat) (hi : s.ptrs[i]? = some p)
    (hp : ∀ b, p = some b → 1 < s.handles b) :
    s.step (.assign i i) = some s := by
  obtain ⟨s0, h1, h2⟩ := Shared.run_ok (s := Shared.empty) (fun b => ⟨fun h => absurd h (by simp [Shared.empty]), fun _ => ⟨rfl, rfl, rfl⟩⟩) ops hops
  rw [hs] at h1
  cases h1
  have hset : s.ptrs.set i p = s.ptrs := by
    apply List.ext_getElem?
    intro k
    rw [List.getElem?_set]
    split
    · rename_i h; subst h
      split
      · exact hi.symm
      · rename_i h; rw [List.getElem?_eq_none (by omega)]
    · rfl
  cases p with
  | none =>
    simp only [Shared.step, hi, Shared.decrement, Shared.increment, Option.bind_eq_bind, Option.bind_some, hset]
  | some b =>
    have h3 := hp b rfl
    have hlt : b < s.next := by
      by_cases hlt : b < s.next
      · exact hlt
      · have := ((h2 b).2 (by omega)).2.1; omega
    have hc := ((h2 b).1 hlt).1
    rw [if_neg (by omega)] at hc
    have h4 : s.handles b ≠ 1 := by omega
    simp only [Shared.step, hi, Shared.decrement, hc, if_neg h4]
    simp only [Option.bind_eq_bind, Option.bind_some, Shared.increment, Shared.setCount, if_true, hset]
    congr 1
    have h5 : s.handles b - 1 + 1 = s.handles b := by omega
    rw [h5]
    cases s with
    | mk counts next ptrs log =>
      simp only at hc ⊢
      congr 1
      funext x
      by_cases hx : x = b
      · subst hx; simp [hc]
      · simp [hx]

/-! ### Non-vacuity -/

example : NoSelfAssign [.create, .copy 0, .create, .assign 0 2, .moveAssign 1 0, .drop 0, .use 1] := by
  intro i h
  simp at h
  omega
/-- two blocks, both deleted at the end, the first one after a use through the copy -/
example : (Shared.empty.run [.create, .copy 0, .create, .assign 0 2, .use 1, .moveAssign 1 0, .drop 2, .drop 1]).map
    (fun s => (s.life 0, s.life 1)) = some ([.create 0, .use 0, .delete 0], [.create 1, .delete 1]) := by decide

end KTL
