import Verif.Spec.Demo

/- What follows from an allocator's contract for every history (helpers of C01–C06 and C92). -/
namespace KTL

/-- what holds after any history, in one place (helper) -/
theorem history_of (sys : Sys) {A : Allocator} {fA : Nat → Prop} (hA : Sound A fA) (b : Nat) (w : World) (hs : Storage w b A.objSize)
    (ops : List Op) (hops : Requests fA ops) :
    match play sys A b ops w with
    | .ok c w' => ∃ h hf, Heap.disj h hf ∧ w'.heap = h.add hf ∧ ClientInv hA b c h ∧
        (∀ x, hf.b x = if b ≤ x ∧ x < b + A.objSize then none else w.heap.b x) ∧ hf.t = w.heap.t ∧ NoAlarm w w'
    | .oom w' => w'.failed = true
    | .ub => False := by
  obtain ⟨h0, hf, hd, he, hb, hfb, hft⟩ := storage_split hs
  have := play_spec sys hA b ops hs.1 hs.2.1 hs.2.2.1 hops w h0 hf hd he hb
  cases hp : play sys A b ops w with
  | ok c w' =>
    rw [hp] at this
    obtain ⟨⟨h', hd', he', hi⟩, hna⟩ := this
    exact ⟨h', hf, hd', he', hi, hfb, hft, hna⟩
  | oom w' => rw [hp] at this; exact this
  | ub => rw [hp] at this; exact this

/-- The client and the memory after a history (helper). -/
def After {A : Allocator} {fA : Nat → Prop} (hA : Sound A fA) (b : Nat) (w : World) (c : Client A) (w' : World) : Prop :=
  ∃ h hf, Heap.disj h hf ∧ w'.heap = h.add hf ∧ ClientInv hA b c h ∧
    (∀ x, hf.b x = if b ≤ x ∧ x < b + A.objSize then none else w.heap.b x) ∧ hf.t = w.heap.t ∧ NoAlarm w w'

theorem blocksV_mem {R h p bs} (hh : blocksV R h) (hm : (p, bs) ∈ R) (i : Nat) (hi : i < bs.length) :
    h.b (p + i) = some bs[i] := by
  induction R generalizing h with
  | nil => simp at hm
  | cons c R ih =>
    obtain ⟨h1, h2, hd, rfl, hc, hR⟩ := hh
    rcases List.mem_cons.1 hm with rfl | hm
    · have := hc.2 (p + i)
      simp at this
      simp [this, hi]
    · have := ih hR hm
      rcases hd.1 (p + i) with e | e
      · simp [e, this]
      · simp [e] at this

theorem foreignV_blocks {R h} (hh : foreignV R h) : ∃ h1 h2, Heap.disj h1 h2 ∧ h = h1.add h2 ∧ blocksV R h1 := by
  induction R generalizing h with
  | nil => exact ⟨h, .empty, Heap.disj_empty _, by simp, hh⟩
  | cons c R ih =>
    rw [foreignV, star_assoc] at hh
    obtain ⟨h1, h2, hd, rfl, ht, h3, h4, hd', rfl, hb, hR⟩ := hh
    obtain ⟨g1, g2, hdg, rfl, hg⟩ := ih hR
    have d1 := Heap.disj_add_right.1 hd
    have d2 := Heap.disj_add_right.1 d1.2
    have d3 := Heap.disj_add_right.1 hd'
    refine ⟨h3.add g1, h1.add g2, ?_, ?_, ⟨h3, g1, d3.1, rfl, hb, hg⟩⟩
    · refine Heap.disj_add_left.2 ⟨Heap.disj_add_right.2 ⟨Heap.disj_comm d1.1, d3.2⟩,
        Heap.disj_add_right.2 ⟨Heap.disj_comm d2.1, hdg⟩⟩
    · rw [Heap.add_comm hd, Heap.add_assoc, Heap.add_assoc, Heap.add_assoc,
        Heap.add_comm (Heap.disj_comm d2.2)]

/-- blocks of a separated list do not overlap -/
theorem blocksV_pairwise {R h} (hh : blocksV R h) :
    R.Pairwise (fun a c => ∀ x, ¬ ((a.1 ≤ x ∧ x < a.1 + a.2.length) ∧ (c.1 ≤ x ∧ x < c.1 + c.2.length))) := by
  induction R generalizing h with
  | nil => exact .nil
  | cons c R ih =>
    obtain ⟨h1, h2, hd, rfl, hc, hR⟩ := hh
    refine .cons (fun d hd' x hx => ?_) (ih hR)
    exact disj_isSome hd (bytesV_isSome hc hx.1)
      (blocksV_isSome hR ⟨blk d, List.mem_map_of_mem hd', hx.2⟩)

theorem After.untouched {A : Allocator} {fA : Nat → Prop} {hA : Sound A fA} {b : Nat} {w : World} {c : Client A} {w' : World}
    (ha : After hA b w c w') : ∀ x v, ¬ (b ≤ x ∧ x < b + A.objSize) → w.heap.b x = some v → w'.heap.b x = some v := by
  obtain ⟨h, hf, hd, he, hi, hfb, hft, _⟩ := ha
  intro x v hx hv
  have e : hf.b x = some v := by rw [hfb]; simp only [hx, if_false]; exact hv
  rw [he]
  rcases hd.1 x with e' | e' <;> simp_all

/-- C01 for one allocator with a contract -/
theorem safe_of (sys : Sys) {A : Allocator} {fA : Nat → Prop} (hA : Sound A fA) (b : Nat) (w : World)
    (hs : Storage w b A.objSize) (ops : List Op) (hops : Requests fA ops) :
    match play sys A b ops w with
    | .ok _ w' => ∀ x v, ¬ (b ≤ x ∧ x < b + A.objSize) → w.heap.b x = some v → w'.heap.b x = some v
    | .oom w' => w'.failed = true
    | .ub => False := by
  have := history_of sys hA b w hs ops hops
  cases hp : play sys A b ops w with
  | ok c w' =>
    rw [hp] at this
    exact After.untouched this
  | oom w' => rw [hp] at this; exact this
  | ub => rw [hp] at this; exact this

theorem After.disjoint {A : Allocator} {fA : Nat → Prop} {hA : Sound A fA} {b : Nat} {w : World} {c : Client A} {w' : World}
    (ha : After hA b w c w') :
    (c.live ++ c.foreign).Pairwise
        (fun a d => ∀ x, ¬ ((a.1 ≤ x ∧ x < a.1 + a.2.length) ∧ (d.1 ≤ x ∧ x < d.1 + d.2.length))) ∧
    ∀ a ∈ c.live, ∀ x, a.1 ≤ x → x < a.1 + a.2.length → ¬ (b ≤ x ∧ x < b + A.objSize) → w.heap.b x = none := by
  obtain ⟨h, hf, hd, he, ⟨h1, h2, hd1, rfl, hI, h3, h4, hd2, rfl, hL, hF⟩, hfb, hft, _⟩ := ha
  constructor
  · obtain ⟨g1, g2, hdg, rfl, hg⟩ := foreignV_blocks hF
    have d := Heap.disj_add_right.1 hd2
    have : blocksV (c.live ++ c.foreign) (h3.add g1) := by
      rw [blocksV_append]; exact ⟨h3, g1, d.1, rfl, hL, hg⟩
    exact blocksV_pairwise this
  · intro a hm x hx1 hx2 hx3
    have hsome : (h3.b x).isSome = true := blocksV_isSome hL ⟨blk a, List.mem_map_of_mem hm, hx1, hx2⟩
    have e : hf.b x = w.heap.b x := by rw [hfb]; simp only [hx3, if_false]
    rw [← e]
    have : ((h1.add (h3.add h4)).b x).isSome = true := heap_right_isSome (heap_left_isSome hsome)
    rcases hd.1 x with e' | e'
    · rw [e'] at this; simp at this
    · exact e'

/-- C02 for one allocator with a contract -/
theorem disjoint_of (sys : Sys) {A : Allocator} {fA : Nat → Prop} (hA : Sound A fA) (b : Nat) (w : World)
    (hs : Storage w b A.objSize) (ops : List Op) (hops : Requests fA ops) (c : Client A) (w' : World)
    (hrun : play sys A b ops w = .ok c w') :
    (c.live ++ c.foreign).Pairwise
        (fun a d => ∀ x, ¬ ((a.1 ≤ x ∧ x < a.1 + a.2.length) ∧ (d.1 ≤ x ∧ x < d.1 + d.2.length))) ∧
    ∀ a ∈ c.live, ∀ x, a.1 ≤ x → x < a.1 + a.2.length → ¬ (b ≤ x ∧ x < b + A.objSize) → w.heap.b x = none := by
  have := history_of sys hA b w hs ops hops
  rw [hrun] at this
  exact After.disjoint this

theorem After.aligned {A : Allocator} {fA : Nat → Prop} {hA : Sound A fA} {b : Nat} {w : World} {c : Client A} {w' : World}
    (ha : After hA b w c w') :
    ∀ a ∈ c.live, a.1 ≠ 0 ∧ a.1 % 16 = 0 ∧ a.1 + a.2.length < 2 ^ 64 := by
  obtain ⟨h, hf, hd, he, ⟨h1, h2, hd1, rfl, hI, _⟩, _⟩ := ha
  intro a hm
  have := (hA.live_good hI (List.mem_map_of_mem (f := blk) hm)).1
  exact ⟨this.1, this.2.1, this.2.2⟩

/-- C03 for one allocator with a contract -/
theorem aligned_of (sys : Sys) {A : Allocator} {fA : Nat → Prop} (hA : Sound A fA) (b : Nat) (w : World)
    (hs : Storage w b A.objSize) (ops : List Op) (hops : Requests fA ops) (c : Client A) (w' : World)
    (hrun : play sys A b ops w = .ok c w') :
    ∀ a ∈ c.live, a.1 ≠ 0 ∧ a.1 % 16 = 0 ∧ a.1 + a.2.length < 2 ^ 64 := by
  have := history_of sys hA b w hs ops hops
  rw [hrun] at this
  exact After.aligned this

theorem After.contents {A : Allocator} {fA : Nat → Prop} {hA : Sound A fA} {b : Nat} {w : World} {c : Client A} {w' : World}
    (ha : After hA b w c w') :
    ∀ a ∈ c.live ++ c.foreign, ∀ i (hi : i < a.2.length), w'.heap.b (a.1 + i) = some a.2[i] := by
  obtain ⟨h, hf, hd, he, ⟨h1, h2, hd1, rfl, hI, h3, h4, hd2, rfl, hL, hF⟩, hfb, hft, _⟩ := ha
  obtain ⟨g1, g2, hdg, rfl, hg⟩ := foreignV_blocks hF
  have d := Heap.disj_add_right.1 hd2
  have hall : blocksV (c.live ++ c.foreign) (h3.add g1) := by
    rw [blocksV_append]; exact ⟨h3, g1, d.1, rfl, hL, hg⟩
  intro a hm i hi
  have e := blocksV_mem hall (show (a.1, a.2) ∈ _ from hm) i hi
  have e2 : ((h3.add (g1.add g2)).b (a.1 + i)) = some a.2[i] := by
    rw [← Heap.add_assoc, Heap.add_b, e]; rfl
  rw [he]
  have e3 : (h1.add (h3.add (g1.add g2))).b (a.1 + i) = some a.2[i] := by
    rcases hd1.1 (a.1 + i) with q | q
    · simp [q, ← e2]
    · rw [q] at e2; cases e2
  rw [Heap.add_b, e3]; rfl

/-- C04 for one allocator with a contract -/
theorem contents_of (sys : Sys) {A : Allocator} {fA : Nat → Prop} (hA : Sound A fA) (b : Nat) (w : World)
    (hs : Storage w b A.objSize) (ops : List Op) (hops : Requests fA ops) (c : Client A) (w' : World)
    (hrun : play sys A b ops w = .ok c w') :
    ∀ a ∈ c.live ++ c.foreign, ∀ i (hi : i < a.2.length), w'.heap.b (a.1 + i) = some a.2[i] := by
  have := history_of sys hA b w hs ops hops
  rw [hrun] at this
  exact After.contents this

/-- the end of a life (helper) -/
theorem fini_returns_of (sys : Sys) {A : Allocator} {fA : Nat → Prop} (hA : Sound A fA) (b : Nat) (w w' : World) (c : Client A) (h hf : Heap) (hd : Heap.disj h hf)
    (he : w'.heap = h.add hf) (hI : ClientInv hA b c h)
    (hfb : ∀ x, hf.b x = if b ≤ x ∧ x < b + A.objSize then none else w.heap.b x) (hft : hf.t = w.heap.t) (hempty : c.live = []) :
    match A.fini c.st w' with
    | .ok _ w'' =>
      (∀ x, b ≤ x → x < b + A.objSize → (w''.heap.b x).isSome = true) ∧
      (∀ x, (∀ f ∈ c.foreign, x ≠ f.1) → w''.heap.t x = w.heap.t x) ∧
      (∀ x, ¬ (b ≤ x ∧ x < b + A.objSize) → (∀ f ∈ c.foreign, ¬ (f.1 ≤ x ∧ x < f.1 + f.2.length)) →
        w''.heap.b x = w.heap.b x)
    | .oom w'' => w''.failed = true
    | .ub => False := by
  have hfin := (hA.fini_spec b c.st).frame (foreignV c.foreign)
  have hpre : (hA.Inv b c.st [] ∗ foreignV c.foreign) h := by
    simpa only [ClientInv, hempty, List.map_nil, blocksV, emp_star] using hI
  have := hfin w' h hf hd he hpre
  have hforeign : ∀ (R : List (Nat × List UInt8)) g, foreignV R g →
      (∀ x, (∀ f ∈ R, x ≠ f.1) → g.t x = none) ∧
      (∀ x, (∀ f ∈ R, ¬ (f.1 ≤ x ∧ x < f.1 + f.2.length)) → g.b x = none) := by
    intro R
    induction R with
    | nil =>
      intro g hg
      have : g = Heap.empty := hg
      subst this; simp
    | cons f R ih =>
      rintro g ⟨g1, g2, hdg, rfl, ⟨k1, k2, hdk, rfl, ht, hb⟩, hR⟩
      obtain ⟨i1, i2⟩ := ih g2 hR
      constructor
      · intro x hx
        have e1 : k1.t x = none := by rw [ht.2 x]; simp [hx f (by simp)]
        have e2 : k2.t x = none := hb.1 x
        have e3 := i1 x (fun f hf => hx f (List.mem_cons_of_mem _ hf))
        simp [e1, e2, e3]
      · intro x hx
        have e1 : k1.b x = none := ht.1 x
        have e2 : k2.b x = none := by
          have := (bytesV_length hb).2 x
          replace this : (k2.b x).isSome = true ↔ (f.1 ≤ x ∧ x < f.1 + f.2.length) := this
          have h0 := hx f (by simp)
          rw [← this] at h0
          simpa using h0
        have e3 := i2 x (fun f hf => hx f (List.mem_cons_of_mem _ hf))
        simp [e1, e2, e3]
  cases hfi : A.fini c.st w' with
  | ok u w'' =>
    rw [hfi] at this
    obtain ⟨⟨h', hd', he', ⟨s1, s2, hds, rfl, hb, hF⟩⟩, _⟩ := this
    have hb' : bytes b A.objSize s1 := hb
    obtain ⟨f1, f2⟩ := hforeign _ _ hF
    refine ⟨?_, ?_, ?_⟩
    · intro x h1 h2
      have := bytes_isSome hb' ⟨h1, h2⟩
      rw [he']; exact heap_left_isSome (heap_left_isSome this)
    · intro x hx
      rw [he', ← hft]
      simp [hb.1 x, f1 x hx]
    · intro x hx1 hx2
      have e1 : s1.b x = none := by
        have := hb'.2 x
        replace this : (s1.b x).isSome = true ↔ (b ≤ x ∧ x < b + A.objSize) := this
        rw [← this] at hx1
        simpa using hx1
      have e2 := hfb x
      simp only [hx1, if_false] at e2
      rw [he', ← e2]
      simp [e1, f2 x hx2]
  | oom w'' => rw [hfi] at this; exact this
  | ub => rw [hfi] at this; exact this

/-- C05 for one allocator with a contract -/
theorem returns_of (sys : Sys) {A : Allocator} {fA : Nat → Prop} (hA : Sound A fA) (b : Nat) (w : World)
    (hs : Storage w b A.objSize) (ops : List Op) (hops : Requests fA ops) (c : Client A) (w' : World)
    (hrun : play sys A b ops w = .ok c w') (hempty : c.live = []) :
    match A.fini c.st w' with
    | .ok _ w'' =>
      (∀ x, b ≤ x → x < b + A.objSize → (w''.heap.b x).isSome = true) ∧
      (∀ x, (∀ f ∈ c.foreign, x ≠ f.1) → w''.heap.t x = w.heap.t x) ∧
      (∀ x, ¬ (b ≤ x ∧ x < b + A.objSize) → (∀ f ∈ c.foreign, ¬ (f.1 ≤ x ∧ x < f.1 + f.2.length)) →
        w''.heap.b x = w.heap.b x)
    | .oom w'' => w''.failed = true
    | .ub => False := by
  have := history_of sys hA b w hs ops hops
  rw [hrun] at this
  obtain ⟨h, hf, hd, he, hI, hfb, hft, _⟩ := this
  exact fini_returns_of sys hA b w w' c h hf hd he hI hfb hft hempty

theorem After.owns {A : Allocator} {fA : Nat → Prop} {hA : Sound A fA} {b : Nat} {w : World} {c : Client A} {w' : World}
    (hh : After hA b w c w')
    (owns : A.St → Nat → Bool) (ho : A.owns = some owns) (x : Nat) :
    ((∃ a ∈ c.live, a.1 ≤ x ∧ x < a.1 + a.2.length) → owns c.st x = true) ∧
    (x ≠ 0 → (∃ a ∈ c.foreign, a.1 ≤ x ∧ x < a.1 + a.2.length) → owns c.st x = false) ∧
    (x ≠ 0 → ¬ (b ≤ x ∧ x < b + A.objSize) → (w.heap.b x).isSome = true → owns c.st x = false) := by
  obtain ⟨h, hf, hd, he, ⟨h1, h2, hd1, rfl, hI, h3, h4, hd2, rfl, hL, hF⟩, hfb, hft, _⟩ := hh
  have key : x ≠ 0 → owns c.st x = true → (h4.b x).isSome = true → False := by
    intro hx ht h4x
    rcases hA.owns_sound owns ho hI hx ht with h | h
    · exact disj_isSome hd1 h (heap_right_isSome h4x)
    · exact disj_isSome hd2 (blocksV_isSome hL h) h4x
  refine ⟨?_, ?_, ?_⟩
  · rintro ⟨a, ha, hx⟩
    exact hA.owns_complete owns ho hI ⟨blk a, List.mem_map_of_mem ha, hx⟩
  · rintro hx ⟨a, ha, hxa⟩
    obtain ⟨g1, g2, hdg, rfl, hg⟩ := foreignV_blocks hF
    have : (g1.b x).isSome = true := blocksV_isSome hg ⟨blk a, List.mem_map_of_mem ha, hxa⟩
    cases hc : owns c.st x with
    | false => rfl
    | true => exact (key hx hc (heap_left_isSome this)).elim
  · intro hx hxr hw
    have e : hf.b x = w.heap.b x := by rw [hfb]; simp only [hxr, if_false]
    rw [← e] at hw
    cases hc : owns c.st x with
    | false => rfl
    | true =>
      rcases hA.owns_sound owns ho hI hx hc with h | h
      · exact (disj_isSome hd (heap_left_isSome h) hw).elim
      · exact (disj_isSome hd (heap_right_isSome (heap_left_isSome (blocksV_isSome hL h))) hw).elim

/-- C06 for one allocator with a contract -/
theorem owns_of (sys : Sys) {A : Allocator} {fA : Nat → Prop} (hA : Sound A fA) (b : Nat) (w : World)
    (hs : Storage w b A.objSize) (ops : List Op) (hops : Requests fA ops) (c : Client A) (w' : World)
    (hrun : play sys A b ops w = .ok c w')
    (owns : A.St → Nat → Bool) (ho : A.owns = some owns) (x : Nat) :
    ((∃ a ∈ c.live, a.1 ≤ x ∧ x < a.1 + a.2.length) → owns c.st x = true) ∧
    (x ≠ 0 → (∃ a ∈ c.foreign, a.1 ≤ x ∧ x < a.1 + a.2.length) → owns c.st x = false) ∧
    (x ≠ 0 → ¬ (b ≤ x ∧ x < b + A.objSize) → (w.heap.b x).isSome = true → owns c.st x = false) := by
  have := history_of sys hA b w hs ops hops
  rw [hrun] at this
  exact After.owns this owns ho x

end KTL
