import Verif.Spec.Lifo
import Verif.Props.Memory
import Verif.Props.Linear
import Verif.Spec.Demo

/- C11–C14: which part of a composed allocator gets which call. -/
namespace KTL

/-- what holds after any history of an allocator that satisfies the contract (helper) -/
theorem sound_history (sys : Sys) {A : Allocator} {fA : Nat → Prop} (hA : Sound A fA) (b : Nat) (w : World)
    (hs : Storage w b A.objSize) (ops : List Op) (hops : Requests fA ops) :
    match play sys A b ops w with
    | .ok c w' => ∃ h hf, Heap.disj h hf ∧ w'.heap = h.add hf ∧ ClientInv hA b c h
    | .oom w' => w'.failed = true
    | .ub => False := by
  obtain ⟨h0, hf, hd, he, hb, hfb, hft⟩ := storage_split hs
  have := play_spec sys hA b ops hs.1 hs.2.1 hs.2.2.1 hops w h0 hf hd he hb
  cases hp : play sys A b ops w with
  | ok c w' =>
    rw [hp] at this
    obtain ⟨⟨h', hd', he', hi⟩, hna⟩ := this
    exact ⟨h', hf, hd', he', hi⟩
  | oom w' => rw [hp] at this; exact this
  | ub => rw [hp] at this; exact this

theorem sound_reach (sys : Sys) {A : Allocator} {fA : Nat → Prop} (hA : Sound A fA) (b : Nat) (w : World)
    (hs : Storage w b A.objSize) (ops : List Op) (hops : Requests fA ops) {c : Client A} {w' : World}
    (hrun : play sys A b ops w = .ok c w') : ∃ h hf, Heap.disj h hf ∧ w'.heap = h.add hf ∧ hA.Inv b c.st (c.live.map blk) h := by
  have := sound_history sys hA b w hs ops hops
  rw [hrun] at this
  obtain ⟨h, hf, hd, he, h1, h2, hd1, rfl, hI, _⟩ := this
  have := Heap.disj_add_left.1 hd
  exact ⟨h1, h2.add hf, Heap.disj_add_right.2 ⟨hd1, this.1⟩, by rw [he, Heap.add_assoc], hI⟩

/-- An allocator with checks that satisfies the contract behaves exactly like the original. -/
theorem checks_hold (sys : Sys) {A B : Allocator} {fB : Nat → Prop} {f : B.St → A.St} (hB : Sound B fB) (hr : Refines B A f)
    (b : Nat) (w : World) (hs : Storage w b B.objSize) (ops : List Op) (hops : Requests fB ops) :
    (play sys B b ops >>= fun c => pure (c.map f)) w = play sys A b ops w := by
  rcases play_below sys hr b ops w with e | e
  · have := sound_history sys hB b w hs ops hops
    rw [e] at this; exact this.elim
  · exact e

/-! ### C13 -/

/-- **C13, allocation.** `fallback` returns the primary's result if that is not null, and otherwise exactly
the fallback's. -/
theorem C13_primary_first (P F : Allocator) (s : P.St) (t : F.St) (n : Nat) (w : World) :
    (∀ p s' w', P.alloc s n w = .ok (p, s') w' → p ≠ 0 → (fallback P F).alloc (s, t) n w = .ok (p, (s', t)) w') ∧
    (∀ s' w', P.alloc s n w = .ok (0, s') w' →
      (∀ q t' w'', F.alloc t n w' = .ok (q, t') w'' → (fallback P F).alloc (s, t) n w = .ok (q, (s', t')) w'')) := by
  constructor
  · intro p s' w' h hp
    show (do
      let r ← P.alloc s n
      if r.1 = 0 then do
        let q ← F.alloc t n
        pure (q.1, (r.2, q.2))
      else pure (r.1, (r.2, t)) : M _) w = _
    rw [bind_of_ok h]; simp only [hp, if_false]; rfl
  · intro s' w' h q t' w'' h2
    show (do
      let r ← P.alloc s n
      if r.1 = 0 then do
        let q ← F.alloc t n
        pure (q.1, (r.2, q.2))
      else pure (r.1, (r.2, t)) : M _) w = _
    rw [bind_of_ok h]; simp only [if_true]
    rw [bind_of_ok h2]; rfl

/-- **C13, deallocation.** In every history of a `fallback`, each part takes back only blocks it has itself
handed out and not yet taken back, with their original sizes: replacing the parts by versions that check
this (`strict`) changes nothing. The live blocks are exactly those recorded in the two ledgers. -/
theorem C13_frees_reach_their_owner (sys : Sys) (P F : AllocTy) (hwf : (AllocTy.fallback P F).WF) (b : Nat) (w : World)
    (hs : Storage w b (AllocTy.fallback P F).size) (ops : List Op) (hops : Sane (.fallback P F) ops) :
    (play sys (fallback (strict (P.denote sys)) (strict (F.denote sys))) b ops >>= fun c => pure (c.map (B := fallback (P.denote sys) (F.denote sys)) fun s : ((P.denote sys).St × Ledger) × ((F.denote sys).St × Ledger) => (s.1.1, s.2.1))) w =
      play sys (fallback (P.denote sys) (F.denote sys)) b ops w ∧
    ∀ (c : Client (fallback (strict (P.denote sys)) (strict (F.denote sys)))) w',
      play sys (fallback (strict (P.denote sys)) (strict (F.denote sys))) b ops w = .ok c w' →
      (c.live.map blk).Perm (c.st.1.2.held ++ c.st.2.2.held) := by
  have hPo : (strict (P.denote sys)).owns.isSome = true := by
    have := P.owns_isSome sys
    rw [hwf.2.2] at this
    simp only [strict, Option.isSome_map, this]
  have hsnd := fallback_sound (strict_sound (P.sound sys hwf.1)) (strict_sound (F.sound sys hwf.2.1)) hPo
  have hs' : Storage w b (fallback (strict (P.denote sys)) (strict (F.denote sys))).objSize := by
    have := (AllocTy.fallback P F).objSize_eq sys
    have e : (fallback (strict (P.denote sys)) (strict (F.denote sys))).objSize = ((AllocTy.fallback P F).denote sys).objSize := rfl
    rw [e, this]; exact hs
  have hops' := hops.fits sys hwf
  refine ⟨checks_hold sys hsnd (fallback_refines (strict_refines _) (strict_refines _)) b w hs' ops hops', ?_⟩
  intro c w' hrun
  obtain ⟨h, hf, hd, he, hI⟩ := sound_reach sys (fallback_sound (strict_sound (P.sound sys hwf.1)) (strict_sound (F.sound sys hwf.2.1)) hPo) b w hs' ops hops' hrun
  obtain ⟨_, L1, L2, hp, h1, h2, _, _, hI1, hI2⟩ := hI
  exact hp.trans (hI1.1.1.symm.append hI2.1.1.symm)

/-! ### C14 -/

/-- **C14, routing.** `segragator` sends a request of `n <= T` bytes, and the deallocation of a block of
`n <= T` bytes, to the primary and leaves the other part alone; for `n > T` the other way round. -/
theorem C14_routes_by_size (T : Nat) (P F : Allocator) (s : P.St) (t : F.St) (p n : Nat) :
    (n ≤ T → (segragator T P F).alloc (s, t) n = (P.alloc s n >>= fun r => pure (r.1, (r.2, t))) ∧
      (segragator T P F).dealloc (s, t) p n = (P.dealloc s p n >>= fun s' => pure (s', t))) ∧
    (T < n → (segragator T P F).alloc (s, t) n = (F.alloc t n >>= fun r => pure (r.1, (s, r.2))) ∧
      (segragator T P F).dealloc (s, t) p n = (F.dealloc t p n >>= fun t' => pure (s, t'))) := by
  constructor
  · intro h
    exact ⟨if_pos h, if_pos h⟩
  · intro h
    have h' : ¬ n ≤ T := by omega
    exact ⟨if_neg h', if_neg h'⟩

/-- **C14, consistency.** In every history each part takes back only blocks it has itself handed out, with
their original sizes; the primary holds exactly the live blocks of at most `T` bytes. -/
theorem C14_blocks_return_where_they_came_from (sys : Sys) (T : Nat) (P F : AllocTy) (hwf : (AllocTy.segragator T P F).WF) (b : Nat) (w : World)
    (hs : Storage w b (AllocTy.segragator T P F).size) (ops : List Op) (hops : Sane (.segragator T P F) ops) :
    (play sys (segragator T (strict (P.denote sys)) (strict (F.denote sys))) b ops >>= fun c => pure (c.map (B := segragator T (P.denote sys) (F.denote sys)) fun s : ((P.denote sys).St × Ledger) × ((F.denote sys).St × Ledger) => (s.1.1, s.2.1))) w =
      play sys (segragator T (P.denote sys) (F.denote sys)) b ops w ∧
    ∀ (c : Client (segragator T (strict (P.denote sys)) (strict (F.denote sys)))) w',
      play sys (segragator T (strict (P.denote sys)) (strict (F.denote sys))) b ops w = .ok c w' →
      c.st.1.2.held.Perm ((c.live.map blk).filter (fun x => x.2 ≤ T)) ∧
      c.st.2.2.held.Perm ((c.live.map blk).filter (fun x => T < x.2)) := by
  have hs' : Storage w b (segragator T (strict (P.denote sys)) (strict (F.denote sys))).objSize := by
    have := (AllocTy.segragator T P F).objSize_eq sys
    have e : (segragator T (strict (P.denote sys)) (strict (F.denote sys))).objSize = ((AllocTy.segragator T P F).denote sys).objSize := rfl
    rw [e, this]; exact hs
  have hops' := hops.fits sys hwf
  refine ⟨checks_hold sys (segragator_sound T (strict_sound (P.sound sys hwf.1)) (strict_sound (F.sound sys hwf.2)))
    (segragator_refines T (strict_refines _) (strict_refines _)) b w hs' ops hops', ?_⟩
  intro c w' hrun
  obtain ⟨h, hf, hd, he, hI⟩ := sound_reach sys (segragator_sound T (strict_sound (P.sound sys hwf.1)) (strict_sound (F.sound sys hwf.2))) b w hs' ops hops' hrun
  obtain ⟨_, h1, h2, _, _, hI1, hI2⟩ := hI
  have e : hi T (c.live.map blk) = (c.live.map blk).filter (fun x => T < x.2) := by
    unfold hi
    congr 1
    funext x
    by_cases h : x.2 ≤ T
    · simp [h]
    · simp [h]; omega
  exact ⟨hI1.1.1, by rw [← e]; exact hI2.1.1⟩

/-! ### C11, C12 -/

/-- The free list over a checked allocator. -/
abbrev checkedFreelist (sys : Sys) (Min Max : Nat) (A : AllocTy) : Allocator := lifoFreelist Min Max (strict (A.denote sys))

theorem checkedFreelist_facts (sys : Sys) (Min Max : Nat) (A : AllocTy) (hwf : (AllocTy.freelist Min Max A).WF) (b : Nat) (w : World)
    (hs : Storage w b (AllocTy.freelist Min Max A).size) (ops : List Op) (hops : Sane (.freelist Min Max A) ops) :
    Storage w b (checkedFreelist sys Min Max A).objSize ∧ Requests (Freelist.Fits Min Max (A.fits sys.plat)) ops := by
  constructor
  · have := (AllocTy.freelist Min Max A).objSize_eq sys
    have e : (checkedFreelist sys Min Max A).objSize = ((AllocTy.freelist Min Max A).denote sys).objSize := rfl
    rw [e, this]; exact hs
  · exact hops.fits sys hwf

/-- **C11.** In every history a `freelist<Min, Max, A>` behaves exactly like the checked one, in which
`allocate(n)` must return null if `n` is not in `(Min, Max]`, and else the most recently freed block if
there is one (and `A` must only get back what it handed out). -/
theorem C11_freelist_is_lifo (sys : Sys) (Min Max : Nat) (A : AllocTy) (hwf : (AllocTy.freelist Min Max A).WF) (b : Nat) (w : World)
    (hs : Storage w b (AllocTy.freelist Min Max A).size) (ops : List Op) (hops : Sane (.freelist Min Max A) ops) :
    (play sys (checkedFreelist sys Min Max A) b ops >>= fun c => pure (c.map (B := freelist Min Max (A.denote sys)) fun s : Freelist.St ((A.denote sys).St × Ledger) × List Nat => (⟨s.1.a.1, s.1.free⟩ : Freelist.St (A.denote sys).St))) w =
      play sys (freelist Min Max (A.denote sys)) b ops w := by
  obtain ⟨h1, h2⟩ := checkedFreelist_facts sys Min Max A hwf b w hs ops hops
  have r1 := lifo_refines Min Max (strict (A.denote sys))
  have r2 := freelist_refines Min Max (strict_refines (A.denote sys))
  have e1 := checks_hold sys (lifo_sound Min Max (strict_sound (A.sound sys hwf.1)) hwf.2.1 hwf.2.2) r1 b w h1 ops h2
  have e2 := checks_hold sys (freelist_sound Min Max (strict_sound (A.sound sys hwf.1)) hwf.2.1 hwf.2.2) r2 b w h1 ops h2
  rw [← e2, M.bind_apply, M.bind_apply, ← e1, M.bind_apply]
  cases play sys (checkedFreelist sys Min Max A) b ops w <;> rfl

/-- one step moves the allocator's fields by one of its own functions (helper) -/
theorem step_state (sys : Sys) {A : Allocator} (R : A.St → Prop) (c : Client A) (o : Op) (h0 : R c.st)
    (ha : ∀ n, o = .allocate n → Post (A.alloc c.st n) (fun r => R r.2)) (hd : ∀ p n, Post (A.dealloc c.st p n) R)
    (hc : ∀ f, A.construct = some f → ∀ p, Post (f c.st p) R) (hd' : ∀ f, A.destroy = some f → ∀ p, Post (f c.st p) R) :
    Post (c.step sys o) (fun c' => R c'.st) := by
  cases o with
  | allocate n =>
    refine Post.bind (ha n rfl) (fun r hr => ?_)
    by_cases hz : r.1 = 0
    · rw [if_pos hz]; exact Post.pure hr
    · rw [if_neg hz]; exact Post.bind' (fun _ => Post.pure hr)
  | deallocate i =>
    simp only [Client.step]
    cases h : c.live[i]? with
    | none => exact Post.pure h0
    | some x => exact Post.bind (hd _ _) (fun s hs => Post.pure hs)
  | write i off v =>
    simp only [Client.step]
    cases h : c.live[i]? with
    | none => exact Post.pure h0
    | some x =>
      show Post (if off < x.2.length then _ else _) _
      split
      · exact Post.bind' (fun _ => Post.pure h0)
      · exact Post.pure h0
  | construct i off =>
    simp only [Client.step]
    cases h : c.live[i]? with
    | none => exact Post.pure h0
    | some x =>
      refine Post.bind (R := R) ?_ (fun s hs => Post.pure hs)
      unfold callOpt
      cases h : A.construct with
      | none => exact Post.pure h0
      | some f => exact hc f h _
  | destroy i off =>
    simp only [Client.step]
    cases h : c.live[i]? with
    | none => exact Post.pure h0
    | some x =>
      refine Post.bind (R := R) ?_ (fun s hs => Post.pure hs)
      unfold callOpt
      cases h : A.destroy with
      | none => exact Post.pure h0
      | some f => exact hd' f h _
  | foreign n =>
    refine Post.bind' (fun p => ?_)
    split
    · exact Post.pure h0
    · exact Post.bind' (fun _ => Post.pure h0)

/-- `J` holds of the allocator's fields in every reachable state if every operation preserves it (helper) -/
theorem play_state (sys : Sys) {A : Allocator} (J : A.St → Prop) (hi : ∀ b, Post (A.init b) J)
    (ha : ∀ s n, J s → Post (A.alloc s n) (fun r => J r.2)) (hd : ∀ s p n, J s → Post (A.dealloc s p n) J)
    (hc : ∀ c, A.construct = some c → ∀ s p, J s → Post (c s p) J) (hd' : ∀ c, A.destroy = some c → ∀ s p, J s → Post (c s p) J)
    (b : Nat) (ops : List Op) : Post (play sys A b ops) (fun c => J c.st) := by
  refine Post.bind (hi b) (fun s hs => ?_)
  suffices ∀ c : Client A, J c.st → Post (c.run sys ops) (fun c => J c.st) from this _ hs
  induction ops with
  | nil => exact fun c hc => Post.pure hc
  | cons o os ih =>
    intro c hcs
    exact Post.bind (step_state sys J c o hcs (fun n _ => ha _ n hcs) (fun p n => hd _ p n hcs) (fun f hf p => hc f hf _ p hcs)
      (fun f hf p => hd' f hf _ p hcs)) (fun c' h => ih c' h)

theorem freelist_returned (sys : Sys) (Min Max : Nat) (A : Allocator) (b : Nat) (ops : List Op) :
    Post (play sys (lifoFreelist Min Max (strict A)) b ops) (fun c => c.st.1.a.2.returned = 0) := by
  have hgot : ∀ (l : Ledger) p n, l.returned = 0 → (l.got p n).returned = 0 := by
    intro l p n h; unfold Ledger.got; split <;> exact h
  have hfree : ∀ (s : Freelist.St (A.St × Ledger)) n, s.a.2.returned = 0 →
      Post ((freelist Min Max (strict A)).alloc s n) (fun r : Nat × Freelist.St (A.St × Ledger) => r.2.a.2.returned = 0) := by
    intro s n h
    simp only [freelist]
    split
    · split
      · exact Post.bind' (fun nx => Post.pure h)
      · refine Post.bind (R := fun r : Nat × (A.St × Ledger) => r.2.2.returned = 0) ?_ (fun r hr => Post.pure hr)
        exact Post.bind' (fun r => Post.pure (hgot _ _ _ h))
    · exact Post.pure h
  refine play_state sys (A := lifoFreelist Min Max (strict A)) (fun s => s.1.a.2.returned = 0) ?_ ?_ ?_ ?_ ?_ b ops
  · intro b
    refine Post.bind (R := fun s : Freelist.St (A.St × Ledger) => s.a.2.returned = 0) ?_ (fun s hs => Post.pure hs)
    refine Post.bind (R := fun s : A.St × Ledger => s.2.returned = 0) ?_ (fun s hs => Post.pure hs)
    exact Post.bind' (fun s => Post.pure rfl)
  · intro s n h
    refine Post.bind (hfree s.1 n h) (fun r hr => ?_)
    split
    · split
      · exact Post.pure hr
      · split
        · exact Post.pure hr
        · exact Post.ub
    · split
      · exact Post.pure hr
      · exact Post.ub
  · intro s p n h
    refine Post.bind (R := fun s : Freelist.St (A.St × Ledger) => s.a.2.returned = 0) ?_ (fun s hs => Post.pure hs)
    simp only [freelist]
    split
    · exact Post.bind' (fun nx => Post.pure h)
    · exact Post.pure h
  · intro c hc s p h
    have hc1 : ((A.construct.map fun c (s : A.St × Ledger) p => do let a ← c s.1 p; pure (a, s.2)).map fun c (s : Freelist.St (A.St × Ledger)) p => do let a ← c s.a p; pure (⟨a, s.free⟩ : Freelist.St (A.St × Ledger))).map
      (fun c (s : Freelist.St (A.St × Ledger) × List Nat) p => do let a ← c s.1 p; pure (a, s.2)) = some c := hc
    obtain ⟨c1, hc2, e1⟩ := Option.map_eq_some_iff.1 hc1
    obtain ⟨c2, hc3, e2⟩ := Option.map_eq_some_iff.1 hc2
    obtain ⟨c3, hc4, e3⟩ := Option.map_eq_some_iff.1 hc3
    subst e1 e2 e3
    exact Post.bind (R := fun s : Freelist.St (A.St × Ledger) => s.a.2.returned = 0)
      (Post.bind (R := fun s : A.St × Ledger => s.2.returned = 0) (Post.bind' fun a => Post.pure h) (fun s hs => Post.pure hs))
      (fun s hs => Post.pure hs)
  · intro c hc s p h
    have hc1 : ((A.destroy.map fun c (s : A.St × Ledger) p => do let a ← c s.1 p; pure (a, s.2)).map fun c (s : Freelist.St (A.St × Ledger)) p => do let a ← c s.a p; pure (⟨a, s.free⟩ : Freelist.St (A.St × Ledger))).map
      (fun c (s : Freelist.St (A.St × Ledger) × List Nat) p => do let a ← c s.1 p; pure (a, s.2)) = some c := hc
    obtain ⟨c1, hc2, e1⟩ := Option.map_eq_some_iff.1 hc1
    obtain ⟨c2, hc3, e2⟩ := Option.map_eq_some_iff.1 hc2
    obtain ⟨c3, hc4, e3⟩ := Option.map_eq_some_iff.1 hc3
    subst e1 e2 e3
    exact Post.bind (R := fun s : Freelist.St (A.St × Ledger) => s.a.2.returned = 0)
      (Post.bind (R := fun s : A.St × Ledger => s.2.returned = 0) (Post.bind' fun a => Post.pure h) (fun s hs => Post.pure hs))
      (fun s hs => Post.pure hs)

/-- **C11/C12, accounting.** After every history: nothing has been returned to the underlying allocator; the
blocks taken from it are the live ones and the ones waiting for reuse, each of exactly `Max` bytes. -/
theorem C12_never_returns_early (sys : Sys) (Min Max : Nat) (A : AllocTy) (hwf : (AllocTy.freelist Min Max A).WF) (b : Nat) (w : World)
    (hs : Storage w b (AllocTy.freelist Min Max A).size) (ops : List Op) (hops : Sane (.freelist Min Max A) ops)
    (c : Client (checkedFreelist sys Min Max A)) (w' : World) (hrun : play sys (checkedFreelist sys Min Max A) b ops w = .ok c w') :
    c.st.1.a.2.returned = 0 ∧
    c.st.1.a.2.held.Perm ((c.live.map Prod.fst ++ c.st.2).map fun p => (p, Max)) ∧
    c.st.1.a.2.taken = c.live.length + c.st.2.length := by
  obtain ⟨h1, h2⟩ := checkedFreelist_facts sys Min Max A hwf b w hs ops hops
  obtain ⟨h, hf, hd, he, hI⟩ := sound_reach sys (lifo_sound Min Max (strict_sound (A.sound sys hwf.1)) hwf.2.1 hwf.2.2) b w h1 ops h2 hrun
  obtain ⟨_, R, hR, ⟨hl, _⟩, g1, g2, _, _, hI1, _⟩ := hI
  have hret := freelist_returned sys Min Max (A.denote sys) b ops w c w' hrun
  have hperm : c.st.1.a.2.held.Perm ((c.live.map Prod.fst ++ c.st.2).map fun p => (p, Max)) := by
    refine hI1.1.1.trans ?_
    rw [Freelist.linked_map hl, ← hR]
    simp only [List.map_map, List.map_append]
    exact List.Perm.refl _
  refine ⟨hret, hperm, ?_⟩
  have := hI1.1.2
  have hlen := hperm.length_eq
  simp only [List.length_map, List.length_append] at hlen
  omega

/-- **C12, peak.** The number of blocks taken from the underlying allocator never exceeds the largest number
of blocks that were live at the same time. -/
theorem C12_bounded_by_peak (sys : Sys) (Min Max : Nat) (A : AllocTy) (hwf : (AllocTy.freelist Min Max A).WF) (b : Nat) (w : World)
    (hs : Storage w b (AllocTy.freelist Min Max A).size) (ops : List Op) (hops : Sane (.freelist Min Max A) ops)
    (peak : Nat)
    (hpeak : ∀ pre, pre <+: ops → ∀ (c : Client (checkedFreelist sys Min Max A)) w',
      play sys (checkedFreelist sys Min Max A) b pre w = .ok c w' → c.live.length ≤ peak)
    (c : Client (checkedFreelist sys Min Max A)) (w' : World) (hrun : play sys (checkedFreelist sys Min Max A) b ops w = .ok c w') :
    c.st.1.a.2.taken ≤ peak := by
  induction ops using snocRec generalizing c w' with
  | nil =>
    have := (C12_never_returns_early sys Min Max A hwf b w hs [] hops c w' hrun).2.2
    have hl := hpeak [] (List.prefix_refl _) c w' hrun
    have : c.st.2 = [] := by
      obtain ⟨s, w1, e1, e2⟩ := bind_ok hrun
      obtain ⟨s2, w2, e3, e4⟩ := bind_ok e1
      cases e4
      cases e2
      rfl
    simp_all
  | append_singleton ops o ih =>
    obtain ⟨c1, w1, r1, r2⟩ := play_snoc_ok hrun
    have hops1 : Sane (.freelist Min Max A) ops := fun n hn => hops n (List.mem_append_left _ hn)
    have ih1 := ih hops1 (fun pre hp => hpeak pre (hp.trans (List.prefix_append _ _))) c1 w1 r1
    have a1 := (C12_never_returns_early sys Min Max A hwf b w hs ops hops1 c1 w1 r1).2.2
    have a2 := (C12_never_returns_early sys Min Max A hwf b w hs _ hops c w' hrun).2.2
    have hp2 := hpeak _ (List.prefix_refl _) c w' hrun
    -- either the stack is empty now, or no block was taken
    have key : c.st.2 = [] ∨ c.st.1.a.2.taken ≤ c1.st.1.a.2.taken := by
      refine step_state sys (A := checkedFreelist sys Min Max A)
        (fun s => s.2 = [] ∨ s.1.a.2.taken ≤ c1.st.1.a.2.taken) c1 o (.inr (Nat.le_refl _)) ?_ ?_ ?_ ?_ w1 c w' r2
      · intro n _
        refine Post.bind (R := fun q : Nat × Freelist.St ((A.denote sys).St × Ledger) =>
          c1.st.2 = [] ∧ Min < n ∧ n ≤ Max ∨ q.2.a.2.taken ≤ c1.st.1.a.2.taken) ?_ ?_
        · obtain ⟨h1, h2⟩ := checkedFreelist_facts sys Min Max A hwf b w hs ops hops1
          obtain ⟨h, hf, hd, he, hI⟩ := sound_reach sys (lifo_sound Min Max (strict_sound (A.sound sys hwf.1)) hwf.2.1 hwf.2.2) b w h1 ops h2 r1
          obtain ⟨_, R, hR, ⟨hl, _⟩, _⟩ := hI
          by_cases hrange : Min < n ∧ n ≤ Max
          · cases R with
            | nil => exact fun _ _ _ _ => .inl ⟨hR.symm, hrange⟩
            | cons x R =>
              have hne : c1.st.1.free ≠ 0 := by rw [hl.1]; exact hl.2.1
              simp only [freelist, gt_iff_lt, hrange, and_self, if_true, ne_eq, hne, not_false_eq_true]
              exact Post.bind' (fun nx => Post.pure (.inr (Nat.le_refl _)))
          · simp only [freelist, gt_iff_lt, hrange, if_false]
            exact Post.pure (.inr (Nat.le_refl _))
        · intro q hq
          by_cases hrange : Min < n ∧ n ≤ Max
          · simp only [hrange, and_self, if_true]
            cases hst : c1.st.2 with
            | nil => exact Post.pure (.inl rfl)
            | cons top stk =>
              have hq' : q.2.a.2.taken ≤ c1.st.1.a.2.taken := by
                rcases hq with h | h
                · rw [hst] at h; cases h.1
                · exact h
              by_cases ht : q.1 = top
              · simp only [ht, if_true]; exact Post.pure (.inr hq')
              · simp only [ht, if_false]; exact Post.ub
          · simp only [hrange, if_false]
            split
            · exact Post.pure (.inr (hq.resolve_left (fun h => hrange h.2)))
            · exact Post.ub
      · intro p n
        refine Post.bind (R := fun s : Freelist.St ((A.denote sys).St × Ledger) => s.a.2.taken ≤ c1.st.1.a.2.taken) ?_
          (fun s hs => Post.pure (.inr hs))
        simp only [freelist]
        split
        · exact Post.bind' (fun nx => Post.pure (Nat.le_refl _))
        · exact Post.pure (Nat.le_refl _)
      · intro f hf p
        have hc1 : (((A.denote sys).construct.map fun c (s : (A.denote sys).St × Ledger) p => do let a ← c s.1 p; pure (a, s.2)).map fun c (s : Freelist.St ((A.denote sys).St × Ledger)) p => do let a ← c s.a p; pure (⟨a, s.free⟩ : Freelist.St ((A.denote sys).St × Ledger))).map
          (fun c (s : Freelist.St ((A.denote sys).St × Ledger) × List Nat) p => do let a ← c s.1 p; pure (a, s.2)) = some f := hf
        obtain ⟨d1, hc2, e1⟩ := Option.map_eq_some_iff.1 hc1
        obtain ⟨d2, hc3, e2⟩ := Option.map_eq_some_iff.1 hc2
        obtain ⟨d3, hc4, e3⟩ := Option.map_eq_some_iff.1 hc3
        subst e1 e2 e3
        exact Post.bind (R := fun s : Freelist.St ((A.denote sys).St × Ledger) => s.a.2.taken ≤ c1.st.1.a.2.taken)
          (Post.bind (R := fun s : (A.denote sys).St × Ledger => s.2.taken ≤ c1.st.1.a.2.taken)
            (Post.bind' fun a => Post.pure (Nat.le_refl _)) (fun s hs => Post.pure hs))
          (fun s hs => Post.pure (.inr hs))
      · intro f hf p
        have hc1 : (((A.denote sys).destroy.map fun c (s : (A.denote sys).St × Ledger) p => do let a ← c s.1 p; pure (a, s.2)).map fun c (s : Freelist.St ((A.denote sys).St × Ledger)) p => do let a ← c s.a p; pure (⟨a, s.free⟩ : Freelist.St ((A.denote sys).St × Ledger))).map
          (fun c (s : Freelist.St ((A.denote sys).St × Ledger) × List Nat) p => do let a ← c s.1 p; pure (a, s.2)) = some f := hf
        obtain ⟨d1, hc2, e1⟩ := Option.map_eq_some_iff.1 hc1
        obtain ⟨d2, hc3, e2⟩ := Option.map_eq_some_iff.1 hc2
        obtain ⟨d3, hc4, e3⟩ := Option.map_eq_some_iff.1 hc3
        subst e1 e2 e3
        exact Post.bind (R := fun s : Freelist.St ((A.denote sys).St × Ledger) => s.a.2.taken ≤ c1.st.1.a.2.taken)
          (Post.bind (R := fun s : (A.denote sys).St × Ledger => s.2.taken ≤ c1.st.1.a.2.taken)
            (Post.bind' fun a => Post.pure (Nat.le_refl _)) (fun s hs => Post.pure hs))
          (fun s hs => Post.pure (.inr hs))
    rcases key with h | h
    · rw [h] at a2; simp at a2; omega
    · omega

/-- **C11, as the client sees it.** After any history, an `allocate` in range that directly follows a `deallocate`
returns the address just freed; an `allocate` out of range is refused and changes nothing. -/
theorem C11_reuses_last_freed (sys : Sys) (Min Max : Nat) (A : AllocTy) (hwf : (AllocTy.freelist Min Max A).WF) (b : Nat) (w : World)
    (hs : Storage w b (AllocTy.freelist Min Max A).size) (ops : List Op) (i n : Nat)
    (hops : Sane (.freelist Min Max A) (ops ++ [.deallocate i, .allocate n])) (hn : Min < n ∧ n ≤ Max)
    (c : Client (freelist Min Max (A.denote sys))) (w1 : World) (hrun : play sys (freelist Min Max (A.denote sys)) b ops w = .ok c w1)
    (p : Nat) (bs : List UInt8) (hi : c.live[i]? = some (p, bs))
    (c' : Client (freelist Min Max (A.denote sys))) (w2 : World)
    (hrun' : c.run sys [.deallocate i, .allocate n] w1 = .ok c' w2) :
    ∃ bs', bs'.length = n ∧ c'.live = (p, bs') :: c.live.eraseIdx i := by
  have hops1 : Sane (.freelist Min Max A) ops := fun n hn => hops n (List.mem_append_left _ hn)
  have e1 := C11_freelist_is_lifo sys Min Max A hwf b w hs ops hops1
  have e2 := C11_freelist_is_lifo sys Min Max A hwf b w hs _ hops
  rw [hrun] at e1
  have e2' : play sys (freelist Min Max (A.denote sys)) b (ops ++ [.deallocate i, .allocate n]) w = .ok c' w2 := by
    rw [play_append, bind_of_ok hrun, hrun']
  rw [e2'] at e2
  obtain ⟨d, w3, e3, e4⟩ := bind_ok e1
  obtain ⟨d', w4, e5, e6⟩ := bind_ok e2
  cases e4; cases e6
  rw [play_append, bind_of_ok e3] at e5
  obtain ⟨d1, w5, e7, e8⟩ := bind_ok e5
  obtain ⟨d2, w6, e9, e10⟩ := bind_ok e8
  cases e10
  have hi' : d.live[i]? = some (p, bs) := hi
  simp only [Client.step, hi'] at e7
  obtain ⟨s1, w7, f1, f2⟩ := bind_ok e7
  have hl1 : d1.live = d.live.eraseIdx i := by cases f2; rfl
  have hs1 : d1.st = s1 := by cases f2; rfl
  have hstk : s1.2 = p :: d.st.2 := by
    have f1' : (do
      let s' ← (freelist Min Max (strict (A.denote sys))).dealloc d.st.1 p bs.length
      pure (s', p :: d.st.2) : M (Freelist.St ((A.denote sys).St × Ledger) × List Nat)) w1 = .ok s1 w7 := f1
    obtain ⟨_, _, g1, g2⟩ := bind_ok f1'
    cases g2; rfl
  obtain ⟨r, w8, g1, g2⟩ := bind_ok e9
  have hp0 : p ≠ 0 := by
    intro hp
    have := sound_history sys ((AllocTy.freelist Min Max A).sound sys hwf) b w
      (by rw [AllocTy.objSize_eq]; exact hs) ops (hops1.fits sys hwf)
    rw [show play sys ((AllocTy.freelist Min Max A).denote sys) b ops w = _ from hrun] at this
    obtain ⟨h, hf, hd, he, h1, h2, hd1, rfl, hI, _⟩ := this
    have hm : (p, bs.length) ∈ List.map blk d.live := List.mem_map.2 ⟨(p, bs), List.mem_of_getElem? hi', rfl⟩
    exact (((AllocTy.freelist Min Max A).sound sys hwf).live_good hI hm).1.1 hp
  have g1' : (do
    let r ← (freelist Min Max (strict (A.denote sys))).alloc d1.st.1 n
    if Min < n ∧ n ≤ Max then
      match d1.st.2 with
      | [] => pure (r.1, (r.2, []))
      | top :: stk => if r.1 = top then pure (r.1, (r.2, stk)) else M.ub
    else if r.1 = 0 then pure (r.1, (r.2, d1.st.2)) else M.ub : M (Nat × (Freelist.St ((A.denote sys).St × Ledger) × List Nat))) w5 = .ok r w8 := g1
  obtain ⟨q, w9, k1, k2⟩ := bind_ok g1'
  rw [hs1, hstk] at k2
  simp only [hn, and_self, if_true] at k2
  have hr : r.1 = p := by
    by_cases hq : q.1 = p
    · simp only [hq, if_true] at k2
      cases k2; rfl
    · simp only [hq, if_false] at k2; cases k2
  rw [if_neg (by rw [hr]; exact hp0)] at g2
  obtain ⟨bs', w10, k3, k4⟩ := bind_ok g2
  cases k4
  refine ⟨bs', ?_, ?_⟩
  · exact Linear.readBytes_length _ _ _ _ _ k3
  · show (r.1, bs') :: d1.live = (p, bs') :: d.live.eraseIdx i
    rw [hr, hl1]

/-! ### Non-vacuity -/

example : (AllocTy.freelist 8 32 (.linear 256)).WF := by decide
example : (AllocTy.fallback (.linear 64) .mallocator).WF := by decide
example : (AllocTy.segragator 16 (.linear 64) .mallocator).WF := by decide
example : Sane (AllocTy.freelist 8 32 (.linear 256)) [.allocate 20, .allocate 9, .deallocate 1, .allocate 32, .allocate 8] := by
  intro n hn
  simp only [List.mem_cons, Op.allocate.injEq, List.not_mem_nil, or_false, reduceCtorEq, false_or] at hn
  simp only [AllocTy.margin]
  omega
/-- two blocks taken for three requests, one refused -/
example : ((play (demoSys .direct) (checkedFreelist (demoSys .direct) 8 32 (.linear 256)) 4096
    [.allocate 20, .allocate 9, .deallocate 1, .allocate 32, .allocate 8] (demoWorld 288)).test fun c _ =>
      decide (c.st.1.a.2.taken = 2 ∧ c.live.length = 2 ∧ c.refused = [8])) = true := by decide +kernel
/-- one block from the primary, one from the fallback -/
example : ((play (demoSys .direct) (fallback (strict (linear 32)) (strict (mallocator (demoSys .direct)))) 4096
    [.allocate 20, .allocate 20] (demoWorld 48)).test fun c _ =>
      decide (c.st.1.2.held.length = 1 ∧ c.st.2.2.held.length = 1)) = true := by decide +kernel

end KTL
