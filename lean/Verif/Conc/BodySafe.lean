import Verif.Conc.BodySound

/- A call given access by access that is fine without interruption is fine at each of its accesses, whatever happens to the rest of memory in
between. Proof machinery. -/
namespace KTL

/-- Proof helper, not code. -/
def Heap.setB (h : Heap) (p : Nat) (v : UInt8) : Heap := { h with b := fun x => if x = p then some v else h.b x }

/-- The memory of a block of `malloc`. Proof helper, not code. -/
def Heap.mblock (a n : Nat) (c : Nat → UInt8) : Heap :=
  ⟨fun x => if a ≤ x ∧ x < a + n then some (c (x - a)) else none, fun x => if x = a then some n else none⟩

/-- Memory without the block that `malloc` handed out. Proof helper, not code. -/
def Heap.cut (h : Heap) (a n : Nat) : Heap :=
  ⟨fun x => if a ≤ x ∧ x < a + n then none else h.b x, fun x => if x = a then none else h.t x⟩

/-- What `malloc` may answer, see `Sys.valid`. Proof helper, not code. -/
def Fresh (plat : Plat) (h : Heap) (a n : Nat) : Prop :=
  0 < a ∧ a % plat.mallocAlign = 0 ∧ a + n < W64 ∧ h.t a = none ∧ ∀ x, a ≤ x → x < a + n → h.b x = none

namespace Body
variable {g : Bool} {α : Type}

/-- Every access of the call is to memory of its own; `fl`: `malloc` has failed before. Proof helper, not code. -/
def Safely (plat : Plat) (Q : α → HProp) : Bool → Body g α → HProp
  | _, .ret a => Q a
  | _, .ub => fun _ => False
  | fl, .null _ => fun _ => fl = true
  | fl, .load p k => fun h => ∃ v, h.b p = some v ∧ Safely plat Q fl (k v) h
  | fl, .store p v k => fun h => (h.b p).isSome = true ∧ Safely plat Q fl k (h.setB p v)
  | fl, .malloc _ n k => fun h => Safely plat Q true (k 0) h ∧
      ∀ a c, Fresh plat h a n → Safely plat Q fl (k a) (h.add (.mblock a n c))
  | fl, .free _ p k => fun h => (p = 0 ∧ Safely plat Q fl k h) ∨
      ∃ n, p ≠ 0 ∧ h.t p = some n ∧ h.hasBytes p n = true ∧ Safely plat Q fl k (h.cut p n)
  | fl, .print _ m k => fun h => (∀ p n x y, m ≠ .corruption p n x y) ∧ Safely plat Q fl k h

/-- The call is fine without interruption, when there is no other memory. Proof helper, not code. -/
def Runs (plat : Plat) (Q : α → HProp) (m : Nat) (fl : Bool) (o : List Msg) (x : Body g α) (h : Heap) : Prop :=
  ∀ sys : Sys, sys.plat = plat → ∀ w : World, m ≤ w.tick → (fl = true → w.failed = true) → w.out = o → w.heap = h →
    match x.seq sys w with
    | .ok a w' => Q a w'.heap ∧ NoAlarm w w'
    | .oom w' => w'.failed = true
    | .ub => False

theorem Runs.of_triple {plat : Plat} {Q : α → HProp} {P : HProp} {x : Body g α} {h : Heap} (hp : P h)
    (ht : ∀ sys : Sys, sys.plat = plat → Triple P (x.seq sys) Q) : Runs plat Q 0 false [] x h := by
  intro sys hs w _ _ _ hw
  have := ht sys hs w h .empty (Heap.disj_empty _) (by rw [Heap.add_empty, hw]) hp
  cases e : x.seq sys w with
  | ok a w' =>
    rw [e] at this
    obtain ⟨⟨h', _, he, hq⟩, hn⟩ := this
    rw [Heap.add_empty] at he
    exact ⟨he ▸ hq, hn⟩
  | oom w' => rw [e] at this; exact this
  | ub => rw [e] at this; exact this

/-- Calls that give memory back do not fail, and only add to the output. -/
theorem giving (sys : Sys) (x : Body g α) (hg : g = true) (w : World) :
    match x.seq sys w with
    | .ok _ w' => ∃ o, w'.out = w.out ++ o
    | .oom _ => False
    | .ub => True := by
  induction x generalizing w with
  | ret a => exact ⟨[], by simp [seq, M.pure_apply]⟩
  | ub => exact trivial
  | null h => rw [hg] at h; cases h
  | malloc h n k ih => rw [hg] at h; cases h
  | load p k ih =>
    cases e : w.heap.b p with
    | none =>
      have : (Body.load p k).seq sys w = .ub := by
        show (M.load p >>= fun v => (k v).seq sys) w = _
        rw [M.bind_apply, M.load, e]
      rw [this]; trivial
    | some v =>
      have : (Body.load p k).seq sys w = (k v).seq sys w := by
        show (M.load p >>= fun v => (k v).seq sys) w = _
        rw [M.bind_apply, M.load, e]
      rw [this]; exact ih v w
  | store p v k ih =>
    cases e : w.heap.b p with
    | none =>
      have : (Body.store p v k).seq sys w = .ub := by
        show (M.store p v >>= fun _ => k.seq sys) w = _
        rw [M.bind_apply, M.store, e]
      rw [this]; trivial
    | some u =>
      have : (Body.store p v k).seq sys w = k.seq sys { w with heap := w.heap.setB p v } := by
        show (M.store p v >>= fun _ => k.seq sys) w = _
        rw [M.bind_apply, M.store, e]; rfl
      rw [this]; exact ih { w with heap := w.heap.setB p v }
  | free _ p k ih =>
    have : (Body.free hg p k).seq sys w = (cFree p >>= fun _ => k.seq sys) w := rfl
    rw [this, M.bind_apply]
    unfold cFree
    by_cases hp : p = 0
    · rw [if_pos hp]; exact ih w
    · rw [if_neg hp]
      cases e : w.heap.t p with
      | none => trivial
      | some n =>
        by_cases hb : w.heap.hasBytes p n = true
        · simp only [hb, if_true]
          exact ih _
        · simp only [hb]
          trivial
  | print _ m k ih =>
    have : (Body.print hg m k).seq sys w = k.seq sys { w with out := w.out ++ [m] } := rfl
    rw [this]
    have := ih { w with out := w.out ++ [m] }
    revert this
    cases k.seq sys { w with out := w.out ++ [m] } with
    | ok a w' =>
      rintro ⟨o, ho⟩
      exact ⟨m :: o, by rw [ho]; simp⟩
    | oom w' => exact id
    | ub => exact id

/-- the calls of `malloc` so far do not matter -/
theorem seq_congr {s1 s2 : Sys} (x : Body g α) (w : World) (h : ∀ k, w.tick ≤ k → s1.malloc k = s2.malloc k) : x.seq s1 w = x.seq s2 w := by
  induction x generalizing w with
  | ret a => rfl
  | ub => rfl
  | null _ => rfl
  | load p k ih =>
    show (M.load p >>= fun v => (k v).seq s1) w = (M.load p >>= fun v => (k v).seq s2) w
    rw [M.bind_apply, M.bind_apply]
    unfold M.load
    cases w.heap.b p with
    | none => rfl
    | some v => exact ih v w h
  | store p v k ih =>
    show (M.store p v >>= fun _ => k.seq s1) w = (M.store p v >>= fun _ => k.seq s2) w
    rw [M.bind_apply, M.bind_apply]
    unfold M.store
    cases w.heap.b p with
    | none => rfl
    | some u => exact ih _ h
  | malloc _ n k ih =>
    show (cMalloc s1 n >>= fun p => (k p).seq s1) w = (cMalloc s2 n >>= fun p => (k p).seq s2) w
    rw [M.bind_apply, M.bind_apply]
    unfold cMalloc
    rw [h w.tick (Nat.le_refl _)]
    cases s2.malloc w.tick w.heap n with
    | none => exact ih 0 _ fun j hj => h j (by have : w.tick + 1 ≤ j := hj; omega)
    | some ac => exact ih ac.1 _ fun j hj => h j (by have : w.tick + 1 ≤ j := hj; omega)
  | free _ p k ih =>
    show (cFree p >>= fun _ => k.seq s1) w = (cFree p >>= fun _ => k.seq s2) w
    rw [M.bind_apply, M.bind_apply]
    unfold cFree
    by_cases hp : p = 0
    · rw [if_pos hp]; exact ih w h
    · rw [if_neg hp]
      cases e : w.heap.t p with
      | none => rfl
      | some n =>
        by_cases hb : w.heap.hasBytes p n = true
        · simp only [hb, if_true]
          exact ih _ h
        · simp only [hb]
          rfl
  | print _ m k ih => exact ih _ h

/-- `malloc` that answers `r` to the request for `n` bytes in its call number `j`, in memory `h`. Proof helper, not code. -/
noncomputable def scripted (sys : Sys) (j : Nat) (h : Heap) (n : Nat) (r : Option (Nat × (Nat → UInt8)))
    (hr : ∀ a c, r = some (a, c) → Fresh sys.plat h a n) : Sys where
  plat := sys.plat
  malloc k h' n' := open Classical in if k = j then (if h' = h ∧ n' = n then r else none) else sys.malloc k h' n'
  valid := by
    classical
    intro k h' n' a c he
    split at he
    · split at he
      · rename_i e
        obtain ⟨rfl, rfl⟩ := e
        exact hr a c he
      · cases he
    · exact sys.valid _ _ _ _ _ he

theorem scripted_hit (sys : Sys) (j : Nat) (h : Heap) (n : Nat) (r) (hr) : (scripted sys j h n r hr).malloc j h n = r := by
  simp [scripted]

theorem scripted_later (sys : Sys) (j : Nat) (h : Heap) (n : Nat) (r) (hr) (k : Nat) (hk : j < k) :
    (scripted sys j h n r hr).malloc k = sys.malloc k := by
  funext h' n'
  simp [scripted, show k ≠ j by omega]

theorem add_mblock (h : Heap) (a n : Nat) (c : Nat → UInt8) (hb : ∀ x, a ≤ x → x < a + n → h.b x = none) (ht : h.t a = none) :
    (⟨fun x => if a ≤ x ∧ x < a + n then some (c (x - a)) else h.b x, fun x => if x = a then some n else h.t x⟩ : Heap) = h.add (.mblock a n c) := by
  apply Heap.ext' <;> intro x
  · show _ = (h.b x).or (if a ≤ x ∧ x < a + n then some (c (x - a)) else none)
    by_cases hx : a ≤ x ∧ x < a + n
    · simp [hx, hb x hx.1 hx.2]
    · simp [hx]
  · show _ = (h.t x).or (if x = a then some n else none)
    by_cases hx : x = a
    · simp [hx, ht]
    · simp [hx]

/-- A call that is fine without interruption and without other memory is fine at each access. -/
theorem Runs.safely {plat : Plat} {Q : α → HProp} (x : Body g α) (m : Nat) (fl : Bool) (o : List Msg) (h : Heap)
    (ho : ∀ p n x y, Msg.corruption p n x y ∉ o) (hx : x.Runs plat Q m fl o h) : x.Safely plat Q fl h := by
  induction x generalizing m fl h o with
  | ret a =>
    have := hx (noSys plat) rfl { heap := h, tick := m, failed := fl, out := o } (Nat.le_refl _) id rfl rfl
    exact this.1
  | ub =>
    have := hx (noSys plat) rfl { heap := h, tick := m, failed := fl, out := o } (Nat.le_refl _) id rfl rfl
    exact this
  | null _ =>
    have := hx (noSys plat) rfl { heap := h, tick := m, failed := fl, out := o } (Nat.le_refl _) id rfl rfl
    cases fl with
    | true => rfl
    | false => exact this.elim
  | load p k ih =>
    have key : ∀ v, h.b p = some v → ∀ sys w, w.heap = h → (Body.load p k).seq sys w = (k v).seq sys w := by
      intro v hv sys w hw
      show (M.load p >>= fun v => (k v).seq sys) w = _
      rw [M.bind_apply, M.load, hw, hv]
    cases e : h.b p with
    | none =>
      have := hx (noSys plat) rfl { heap := h, tick := m, failed := fl, out := o } (Nat.le_refl _) id rfl rfl
      have e' : (Body.load p k).seq (noSys plat) { heap := h, tick := m, failed := fl, out := o } = .ub := by
        show (M.load p >>= fun v => (k v).seq (noSys plat)) { heap := h, tick := m, failed := fl, out := o } = _
        simp only [M.bind_apply, M.load, e]
      rw [e'] at this
      exact this.elim
    | some v =>
      refine ⟨v, e, ih v m fl o h ho fun sys hs w hm hf hwo hw => ?_⟩
      have := hx sys hs w hm hf hwo hw
      rw [key v e sys w hw] at this
      exact this
  | store p v k ih =>
    cases e : h.b p with
    | none =>
      have := hx (noSys plat) rfl { heap := h, tick := m, failed := fl, out := o } (Nat.le_refl _) id rfl rfl
      have e' : (Body.store p v k).seq (noSys plat) { heap := h, tick := m, failed := fl, out := o } = .ub := by
        show (M.store p v >>= fun _ => k.seq (noSys plat)) { heap := h, tick := m, failed := fl, out := o } = _
        simp only [M.bind_apply, M.store, e]
      rw [e'] at this
      exact this.elim
    | some u =>
      refine ⟨by rw [e]; rfl, ih m fl o _ ho fun sys hs w hm hf hwo hw => ?_⟩
      have := hx sys hs { w with heap := h } hm hf hwo rfl
      have e' : (Body.store p v k).seq sys { w with heap := h } = k.seq sys w := by
        show (M.store p v >>= fun _ => k.seq sys) { w with heap := h } = _
        simp only [M.bind_apply, M.store, e]
        obtain ⟨_, _, _, _, _⟩ := w
        cases hw
        rfl
      rw [e'] at this
      exact this
  | malloc hg n k ih =>
    refine ⟨ih 0 (m + 1) true o h ho fun sys hs w hm hf hwo hw => ?_, fun a c hfr => ih a (m + 1) fl o _ ho fun sys hs w hm hf hwo hw => ?_⟩
    · have hr : ∀ a c, (none : Option (Nat × (Nat → UInt8))) = some (a, c) → Fresh sys.plat h a n := by intro a c h; cases h
      have := hx (scripted sys (w.tick - 1) h n none hr) hs { w with heap := h, tick := w.tick - 1 } (by show m ≤ w.tick - 1; omega)
        (fun _ => hf rfl) hwo rfl
      have e' : (Body.malloc hg n k).seq (scripted sys (w.tick - 1) h n none hr) { w with heap := h, tick := w.tick - 1 } = (k 0).seq sys w := by
        show (cMalloc _ n >>= fun p => (k p).seq _) _ = _
        rw [M.bind_apply]
        unfold cMalloc
        simp only [scripted_hit]
        have ew : ({ w with heap := h, tick := w.tick - 1 + 1, failed := true } : World) = w := by
          have h1 : w.tick - 1 + 1 = w.tick := by omega
          have h2 := hf rfl
          obtain ⟨_, _, _, _, _⟩ := w
          simp only at hw h1 h2
          subst hw h2
          simp only [h1]
        rw [ew]
        exact seq_congr _ _ fun j hj => scripted_later _ _ _ _ _ _ _ (by omega)
      rw [e'] at this
      exact this
    · have hr : ∀ a' c', some (a, c) = some (a', c') → Fresh sys.plat h a' n := by
        intro a' c' h; cases h; rw [hs]; exact hfr
      have := hx (scripted sys (w.tick - 1) h n (some (a, c)) hr) hs { w with heap := h, tick := w.tick - 1 } (by show m ≤ w.tick - 1; omega) hf hwo rfl
      have e' : (Body.malloc hg n k).seq (scripted sys (w.tick - 1) h n (some (a, c)) hr) { w with heap := h, tick := w.tick - 1 } = (k a).seq sys w := by
        show (cMalloc _ n >>= fun p => (k p).seq _) _ = _
        rw [M.bind_apply]
        unfold cMalloc
        simp only [scripted_hit]
        have ew : ({ w with heap := ⟨fun x => if a ≤ x ∧ x < a + n then some (c (x - a)) else h.b x, fun x => if x = a then some n else h.t x⟩, tick := w.tick - 1 + 1 } : World) = w := by
          have h1 : w.tick - 1 + 1 = w.tick := by omega
          rw [add_mblock h a n c hfr.2.2.2.2 hfr.2.2.2.1, ← hw, h1]
        rw [ew]
        exact seq_congr _ _ fun j hj => scripted_later _ _ _ _ _ _ _ (by omega)
      rw [e'] at this
      exact this
  | free hg p k ih =>
    by_cases hp : p = 0
    · subst hp
      exact .inl ⟨rfl, ih m fl o h ho fun sys hs w hm hf hwo hw => hx sys hs w hm hf hwo hw⟩
    · have h0 := hx (noSys plat) rfl { heap := h, tick := m, failed := fl, out := o } (Nat.le_refl _) id rfl rfl
      have e0 : ∀ sys w, (Body.free hg p k).seq sys w = (cFree p >>= fun _ => k.seq sys) w := fun _ _ => rfl
      cases e : h.t p with
      | none =>
        rw [e0, M.bind_apply] at h0
        simp only [cFree, if_neg hp, e] at h0
      | some n =>
        by_cases hb : h.hasBytes p n = true
        · refine .inr ⟨n, hp, e, hb, ih m fl o _ ho fun sys hs w hm hf hwo hw => ?_⟩
          have := hx sys hs { w with heap := h } hm hf hwo rfl
          have e' : (Body.free hg p k).seq sys { w with heap := h } = k.seq sys w := by
            rw [e0, M.bind_apply]
            simp only [cFree, if_neg hp, e, hb, if_true]
            obtain ⟨_, _, _, _, _⟩ := w
            cases hw
            rfl
          rw [e'] at this
          exact this
        · rw [e0, M.bind_apply] at h0
          simp only [cFree, if_neg hp, e, hb] at h0
          exact h0.elim
  | print hg mg k ih =>
    have hm : ∀ p n x y, mg ≠ .corruption p n x y := by
      intro p n x y he
      subst he
      have := hx (noSys plat) rfl { heap := h, tick := m, failed := fl, out := o } (Nat.le_refl _) id rfl rfl
      have e0 : (Body.print hg (.corruption p n x y) k).seq (noSys plat) { heap := h, tick := m, failed := fl, out := o } =
        k.seq (noSys plat) { heap := h, tick := m, failed := fl, out := o ++ [.corruption p n x y] } := rfl
      rw [e0] at this
      have hgv := giving (noSys plat) k hg { heap := h, tick := m, failed := fl, out := o ++ [.corruption p n x y] }
      cases hk : k.seq (noSys plat) { heap := h, tick := m, failed := fl, out := o ++ [.corruption p n x y] } with
      | ok a w' =>
        rw [hk] at this hgv
        obtain ⟨o', ho'⟩ := hgv
        exact ho p n x y (this.2 p n x y (by rw [ho']; simp))
      | oom w' => rw [hk] at hgv; exact hgv
      | ub => rw [hk] at this; exact this
    refine ⟨hm, ih m fl (o ++ [mg]) h (fun p n x y hmem => ?_) fun sys hs w hm' hf hwo hw => ?_⟩
    · rcases List.mem_append.1 hmem with h1 | h1
      · exact ho p n x y h1
      · exact hm p n x y (List.mem_singleton.1 h1).symm
    · have := hx sys hs { w with out := o } hm' hf rfl hw
      have e0 : (Body.print hg mg k).seq sys { w with out := o } = k.seq sys w := by
        show k.seq sys { w with out := o ++ [mg] } = _
        rw [← hwo]
      rw [e0] at this
      revert this
      cases k.seq sys w with
      | ok a w' =>
        rintro ⟨h1, h2⟩
        refine ⟨h1, fun p n x y hh => ?_⟩
        rw [hwo]
        exact List.mem_append_left _ (h2 p n x y hh)
      | oom w' => exact id
      | ub => exact id

end Body
end KTL
