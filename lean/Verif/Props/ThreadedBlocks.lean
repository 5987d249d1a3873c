import Verif.Props.Threaded
import Verif.Props.Memory
import Verif.Props.Linear
import Verif.Spec.Demo

/- C64: threads that share a `threaded` allocator. -/
namespace KTL

/-! ### Specification -/

/-- the blocks a thread holds after the calls `h`: what it was given and has not given back -/
def heldAfter (acc : List (Nat × Nat)) : List (TCall × Nat) → List (Nat × Nat)
  | [] => acc
  | (.allocate n, p) :: h => heldAfter (if p = 0 then acc else (p, n) :: acc) h
  | (.deallocate p n, _) :: h => heldAfter (acc.erase (p, n)) h
  | _ :: h => heldAfter acc h

def held (h : List (TCall × Nat)) : List (Nat × Nat) := heldAfter [] h

/-- An `allocate` of between 1 byte and what does not wrap around, or a `deallocate` of a block that is held after the calls `h`, with the size it
was asked for. -/
def LawfulCall (t : AllocTy) (h : List (TCall × Nat)) (c : TCall) : Prop :=
  match c with
  | .allocate n => 0 < n ∧ n + t.margin < W64
  | .deallocate p n => (p, n) ∈ held h
  | _ => False

/-- The threads keep to the rules: they only use `allocate` and `deallocate`, request between 1 byte and what does not wrap around,
and give back only blocks they hold, with the size they asked for. -/
def Lawful (t : AllocTy) (prog : Nat → List (TCall × Nat) → Option TCall) : Prop := ∀ i h c, prog i h = some c → LawfulCall t h c

/-- two blocks have no byte in common -/
def NoOverlap (a d : Nat × Nat) : Prop := ∀ x, ¬ ((a.1 ≤ x ∧ x < a.1 + a.2) ∧ (d.1 ≤ x ∧ x < d.1 + d.2))

/-! ### Proof -/

theorem NoOverlap.symm {a d : Nat × Nat} (h : NoOverlap a d) : NoOverlap d a := fun x hx => h x hx.symm

theorem heldAfter_append (acc : List (Nat × Nat)) (h k : List (TCall × Nat)) : heldAfter acc (h ++ k) = heldAfter (heldAfter acc h) k := by
  induction h generalizing acc with
  | nil => rfl
  | cons x h ih =>
    obtain ⟨c, r⟩ := x
    cases c <;> exact ih _

theorem held_snoc (h : List (TCall × Nat)) (x : TCall × Nat) : held (h ++ [x]) = heldAfter (held h) [x] := heldAfter_append _ _ _

/-- the blocks of all threads -/
def heldAll (acc : List (Nat × Nat × Nat)) : List (Nat × TCall × Nat) → List (Nat × Nat × Nat)
  | [] => acc
  | (t, .allocate n, p) :: h => heldAll (if p = 0 then acc else (t, p, n) :: acc) h
  | (t, .deallocate p n, _) :: h => heldAll (acc.erase (t, p, n)) h
  | _ :: h => heldAll acc h

theorem heldAll_append (acc : List (Nat × Nat × Nat)) (h k : List (Nat × TCall × Nat)) : heldAll acc (h ++ k) = heldAll (heldAll acc h) k := by
  induction h generalizing acc with
  | nil => rfl
  | cons x h ih =>
    obtain ⟨t, c, r⟩ := x
    cases c <;> exact ih _

/-- the part of thread `t` -/
def part (t : Nat) (G : List (Nat × Nat × Nat)) : List (Nat × Nat) := (G.filter (·.1 == t)).map (·.2)

theorem part_erase_same (t : Nat) (x : Nat × Nat) (G : List (Nat × Nat × Nat)) : part t (G.erase (t, x)) = (part t G).erase x := by
  induction G with
  | nil => rfl
  | cons g G ih =>
    obtain ⟨u, y⟩ := g
    by_cases hu : u = t
    · subst hu
      by_cases hy : y = x
      · subst hy
        simp [part]
      · rw [List.erase_cons_tail (by simp [hy])]
        simp only [part, List.filter_cons, beq_self_eq_true, if_true, List.map_cons]
        rw [List.erase_cons_tail (by simp [hy])]
        exact congrArg _ ih
    · rw [List.erase_cons_tail (by simp [hu])]
      simp only [part, List.filter_cons]
      rw [if_neg (by simp [hu]), if_neg (by simp [hu])]
      exact ih

theorem part_erase_other {t u : Nat} (h : u ≠ t) (x : Nat × Nat) (G : List (Nat × Nat × Nat)) : part t (G.erase (u, x)) = part t G := by
  induction G with
  | nil => rfl
  | cons g G ih =>
    obtain ⟨v, y⟩ := g
    by_cases he : (v, y) = (u, x)
    · cases he
      rw [List.erase_cons_head]
      simp only [part, List.filter_cons]
      rw [if_neg (by simp [h])]
    · rw [List.erase_cons_tail (by simpa using he)]
      simp only [part, List.filter_cons] at ih ⊢
      by_cases hv : v = t
      · rw [if_pos (by simp [hv]), if_pos (by simp [hv])]
        exact congrArg (List.cons _) ih
      · rw [if_neg (by simp [hv]), if_neg (by simp [hv])]
        exact ih

theorem part_heldAll (t : Nat) (log : List (Nat × TCall × Nat)) (acc : List (Nat × Nat × Nat)) :
    part t (heldAll acc log) = heldAfter (part t acc) ((log.filter (·.1 == t)).map (·.2)) := by
  induction log generalizing acc with
  | nil => rfl
  | cons x log ih =>
    obtain ⟨u, c, r⟩ := x
    by_cases hu : u = t
    · subst hu
      simp only [List.filter_cons, beq_self_eq_true, if_true, List.map_cons]
      cases c with
      | allocate n =>
        rw [heldAll, ih, heldAfter]
        split <;> simp [part]
      | deallocate p n => rw [heldAll, ih, heldAfter, part_erase_same]
      | construct => rw [heldAll, ih, heldAfter]
                     all_goals simp
      | destroy => rw [heldAll, ih, heldAfter]
                   all_goals simp
      | owns => rw [heldAll, ih, heldAfter]
                all_goals simp
    · simp only [List.filter_cons]
      rw [if_neg (by simp [hu])]
      cases c with
      | allocate n =>
        rw [heldAll, ih]
        split
        · rfl
        · simp [part, hu]
      | deallocate p n => rw [heldAll, ih, part_erase_other hu]
      | construct => exact ih _
      | destroy => exact ih _
      | owns => exact ih _

/-- a thread that has called was asked to -/
theorem asked_run {σ ρ κ : Type} (C : Calls σ ρ κ) (prog : Nat → List (κ × ρ) → Option κ) (sched : List Nat) (m : Mach σ ρ κ)
    (h : ∀ t c, (m.threads t).phase = .waiting c ∨ (∃ a, (m.threads t).phase = .running c a) → prog t (m.threads t).hist = some c) :
    ∀ t c, ((m.run C prog sched).threads t).phase = .waiting c ∨ (∃ a, ((m.run C prog sched).threads t).phase = .running c a) →
      prog t ((m.run C prog sched).threads t).hist = some c := by
  induction sched generalizing m with
  | nil => exact h
  | cons u us ih =>
    refine ih _ fun t c hc => ?_
    by_cases ht : t = u
    · subst ht
      unfold Mach.step at hc ⊢
      dsimp only at hc ⊢
      cases hph : (m.threads t).phase with
      | idle =>
        simp only [hph] at hc ⊢
        cases hp : prog t (m.threads t).hist with
        | none => simp only [hp] at hc; simp [hph] at hc
        | some d =>
          simp only [hp] at hc ⊢
          rw [put_same] at hc ⊢
          rcases hc with e | ⟨a, e⟩
          · cases e; exact hp
          · cases e
      | waiting d =>
        have hd := h t d (.inl hph)
        simp only [hph] at hc ⊢
        split at hc
        · split at hc
          · simp only [*] at hc ⊢
            rcases hc with e | ⟨a, e⟩
            · cases e; exact hd
            · cases e
          · simp only [*, if_true] at hc ⊢
            rw [put_same] at hc ⊢
            rcases hc with e | ⟨a, e⟩
            · cases e
            · cases e; exact hd
        · rename_i hl
          simp only [hl] at ⊢
          rw [put_same] at hc
          rcases hc with e | ⟨a, e⟩
          · cases e
          · cases e
            simp only [Bool.false_eq_true, if_false]
            rw [put_same]
            exact hd
      | running d a =>
        have hd := h t d (.inr ⟨a, hph⟩)
        cases a with
        | done r =>
          simp only [hph] at hc
          rcases hc with e | ⟨a, e⟩ <;> simp [Mach.put] at e
        | step f k =>
          simp only [hph] at hc ⊢
          rcases hc with e | ⟨a, e⟩ <;> simp [Mach.put] at e ⊢
          rw [← e.1]; exact hd
    · rw [step_other C prog m ht] at hc ⊢
      exact h t c hc

/-- What the completed calls have led to. -/
inductive Explained (sys : Sys) (t : AllocTy) (b : Nat) (w : World) (G : List (Nat × Nat × Nat)) : Res (t.denote sys).St → Prop where
  | ok (ops : List Op) (hops : Sane t ops) (c : Client (t.denote sys)) (w' : World) (hp : play sys (t.denote sys) b ops w = .ok c w')
      (hperm : (c.live.map blk).Perm (G.map (·.2))) (hforeign : c.foreign = []) : Explained sys t b w G (.ok c.st w')
  | oom (w' : World) (hf : w'.failed = true) (hG : (G.map (·.2)).Pairwise NoOverlap)
      (ha : ∀ a ∈ G.map (·.2), a.1 ≠ 0 ∧ a.1 % 16 = 0 ∧ a.1 + a.2 < 2 ^ 64) : Explained sys t b w G (.oom w')

theorem Explained.good {sys : Sys} {t : AllocTy} (hwf : t.WF) {b : Nat} {w : World} (hs : Storage w b t.size) {G : List (Nat × Nat × Nat)}
    {r : Res (t.denote sys).St} (h : Explained sys t b w G r) :
    (G.map (·.2)).Pairwise NoOverlap ∧ ∀ a ∈ G.map (·.2), a.1 ≠ 0 ∧ a.1 % 16 = 0 ∧ a.1 + a.2 < 2 ^ 64 := by
  cases h with
  | oom w' hf hG ha => exact ⟨hG, ha⟩
  | ok ops hops c w' hp hperm _ =>
    have h2 := (List.pairwise_append.1 (C02_live_blocks_disjoint sys t hwf b w hs ops hops c w' hp).1).1
    have h3 := C03_blocks_aligned sys t hwf b w hs ops hops c w' hp
    refine ⟨?_, ?_⟩
    · refine (hperm.pairwise_iff (fun h => NoOverlap.symm h)).1 ?_
      rw [List.pairwise_map]
      exact h2
    · intro a ha
      obtain ⟨l, hl, rfl⟩ := List.mem_map.1 (hperm.mem_iff.2 ha)
      exact h3 l hl

theorem readBytes_same (p n : Nat) (w : World) (bs : List UInt8) (w' : World) (h : M.readBytes p n w = .ok bs w') : w' = w := by
  induction n generalizing p bs w' with
  | zero => cases h; rfl
  | succ n ih =>
    obtain ⟨v, w1, h1, h2⟩ := bind_ok h
    have : w1 = w := by
      unfold M.load at h1
      split at h1 <;> cases h1
      rfl
    subst this
    obtain ⟨vs, w2, h3, h4⟩ := bind_ok h2
    cases h4
    exact ih _ _ _ h3

theorem readBytes_no_oom (p n : Nat) (w w' : World) : M.readBytes p n w ≠ .oom w' := by
  induction n generalizing p w w' with
  | zero => intro e; cases e
  | succ n ih =>
    intro e
    change (M.load p >>= fun v => M.readBytes (p + 1) n >>= fun vs => pure (v :: vs)) w = _ at e
    rw [M.bind_apply] at e
    cases hl : M.load p w with
    | ub => rw [hl] at e; cases e
    | oom w1 =>
      unfold M.load at hl
      split at hl <;> cases hl
    | ok v w1 =>
      rw [hl] at e
      dsimp only at e
      rw [M.bind_apply] at e
      cases hr : M.readBytes (p + 1) n w1 with
      | ub => rw [hr] at e; cases e
      | oom w2 => exact ih _ _ _ hr
      | ok vs w2 => rw [hr] at e; cases e

theorem pairwise_erase {α} [BEq α] [LawfulBEq α] {β} {R : β → β → Prop} (f : α → β) {l : List α} (h : (l.map f).Pairwise R) (x : α) :
    ((l.erase x).map f).Pairwise R := by
  rw [List.pairwise_map] at h ⊢
  exact h.sublist List.erase_sublist

theorem explained_step {sys : Sys} {t : AllocTy} (hwf : t.WF) {b : Nat} {w : World} (hs : Storage w b t.size)
    {C : Calls (Res (t.denote sys).St) Nat TCall} (hC : IsThreaded (t.denote sys) C) {G : List (Nat × Nat × Nat)}
    {r : Res (t.denote sys).St} (h : Explained sys t b w G r) (i : Nat) (c : TCall)
    (hc : match c with
      | .allocate n => 0 < n ∧ n + t.margin < W64
      | .deallocate p n => (i, p, n) ∈ G
      | _ => False) :
    Explained sys t b w (heldAll G [(i, c, ((C.body c).run r).1)]) ((C.body c).run r).2 := by
  have hgood := h.good hwf hs
  cases h with
  | oom w' hf hG ha =>
    rw [hC.oom]
    cases c with
    | allocate n => exact .oom w' hf hG ha
    | deallocate p n =>
      refine .oom w' hf (pairwise_erase _ hG _) fun a h => ha a ?_
      obtain ⟨g, hg, rfl⟩ := List.mem_map.1 h
      exact List.mem_map.2 ⟨g, List.mem_of_mem_erase hg, rfl⟩
    | construct => exact hc.elim
    | destroy => exact hc.elim
    | owns => exact hc.elim
  | ok ops hops d w' hp hperm hfor =>
    rw [hC.body]
    cases c with
    | construct => exact hc.elim
    | destroy => exact hc.elim
    | owns => exact hc.elim
    | allocate n =>
      have hops' : Sane t (ops ++ [.allocate n]) := by
        intro k hk
        rcases List.mem_append.1 hk with hk | hk
        · exact hops k hk
        · simp only [List.mem_singleton, Op.allocate.injEq] at hk
          subst hk
          exact ⟨by omega, hc.1, hc.2⟩
      have hsafe := C01_no_undefined_behaviour sys t hwf b w hs _ hops'
      have e0 : play sys (t.denote sys) b (ops ++ [.allocate n]) w = d.step sys (.allocate n) w' := by
        rw [play_append, M.bind_apply, hp]
        show (d.step sys (.allocate n) >>= fun c => (pure c : M _)) w' = _
        rw [bind_pure]
      rw [e0] at hsafe
      show Explained sys t b w (heldAll G [(i, .allocate n, _)]) _
      simp only [TCall.onAlloc]
      cases ha : (t.denote sys).alloc d.st n w' with
      | ub => simp [Client.step, M.bind_apply, ha] at hsafe
      | oom w1 =>
        simp [Client.step, M.bind_apply, ha] at hsafe
        exact .oom w1 hsafe hgood.1 hgood.2
      | ok x w1 =>
        obtain ⟨p, s'⟩ := x
        simp only [heldAll]
        by_cases hp0 : p = 0
        · rw [if_pos hp0]
          have e1 : d.step sys (.allocate n) w' = .ok { d with st := s', refused := n :: d.refused } w1 := by
            simp [Client.step, M.bind_apply, ha, hp0]
            rfl
          exact .ok _ hops' _ w1 (e0.trans e1) hperm hfor
        · rw [if_neg hp0]
          cases hr : M.readBytes p n w1 with
          | ub => simp only [Client.step, M.bind_apply, ha, if_neg hp0, hr] at hsafe
          | oom w2 => exact absurd hr (readBytes_no_oom _ _ _ _)
          | ok bs w2 =>
            have := readBytes_same _ _ _ _ _ hr
            subst this
            have e1 : d.step sys (.allocate n) w' = .ok { d with st := s', live := (p, bs) :: d.live } w2 := by
              simp only [Client.step, M.bind_apply, ha, if_neg hp0, hr]
              rfl
            refine .ok _ hops' _ w2 (e0.trans e1) ?_ hfor
            simp only [List.map_cons]
            have hl : blk (p, bs) = (p, n) := by
              show (p, bs.length) = _
              rw [Linear.readBytes_length _ _ _ _ _ hr]
            rw [hl]
            exact hperm.cons _
    | deallocate p n =>
      have hmem : (p, n) ∈ d.live.map blk := hperm.mem_iff.2 (List.mem_map.2 ⟨_, hc, rfl⟩)
      obtain ⟨a, ha1, ha2⟩ := List.mem_map.1 hmem
      obtain ⟨k, hk⟩ := List.getElem?_of_mem ha1
      have hops' : Sane t (ops ++ [.deallocate k]) := by
        intro m hm
        rcases List.mem_append.1 hm with hm | hm
        · exact hops m hm
        · simp at hm
      have hsafe := C01_no_undefined_behaviour sys t hwf b w hs _ hops'
      have e0 : play sys (t.denote sys) b (ops ++ [.deallocate k]) w = d.step sys (.deallocate k) w' := by
        rw [play_append, M.bind_apply, hp]
        show (d.step sys (.deallocate k) >>= fun c => (pure c : M _)) w' = _
        rw [bind_pure]
      have hpa : a.1 = p := congrArg Prod.fst ha2
      have hna : a.2.length = n := congrArg Prod.snd ha2
      rw [e0] at hsafe
      show Explained sys t b w (G.erase (i, p, n)) _
      simp only [TCall.onAlloc, M.bind_apply]
      cases hd : (t.denote sys).dealloc d.st p n w' with
      | ub => simp [Client.step, hk, M.bind_apply, hpa, hna, hd] at hsafe
      | oom w1 =>
        simp [Client.step, hk, M.bind_apply, hpa, hna, hd] at hsafe
        refine .oom w1 hsafe (pairwise_erase _ hgood.1 _) fun a h => hgood.2 a ?_
        obtain ⟨g, hg, rfl⟩ := List.mem_map.1 h
        exact List.mem_map.2 ⟨g, List.mem_of_mem_erase hg, rfl⟩
      | ok s' w1 =>
        have e1 : d.step sys (.deallocate k) w' = .ok { d with st := s', live := d.live.eraseIdx k } w1 := by
          simp [Client.step, hk, M.bind_apply, hpa, hna, hd]
          rfl
        refine .ok _ hops' _ w1 (e0.trans e1) ?_ hfor
        have h1 := (perm_eraseIdx hk).map blk
        have h2 := (List.perm_cons_erase hc).map (fun g : Nat × Nat × Nat => g.2)
        simp only [List.map_cons, ha2] at h1 h2
        exact (h1.symm.trans (hperm.trans h2)).cons_inv

theorem explained_log {sys : Sys} {t : AllocTy} (hwf : t.WF) {b : Nat} {w : World} (hs : Storage w b t.size)
    {C : Calls (Res (t.denote sys).St) Nat TCall} (hC : IsThreaded (t.denote sys) C)
    {s : (t.denote sys).St} {w1 : World} (hi : (t.denote sys).init b w = .ok s w1) (log : List (Nat × TCall × Nat)) :
    (replay C (.ok s w1) (log.map (·.2.1))).1 = log.map (·.2.2) →
    (∀ pre i c r post, log = pre ++ (i, c, r) :: post → LawfulCall t ((pre.filter (·.1 == i)).map (·.2)) c) →
    Explained sys t b w (heldAll [] log) (replay C (.ok s w1) (log.map (·.2.1))).2 := by
  induction log using snocRec with
  | nil =>
    intro _ _
    refine .ok (c := { st := s, live := [], foreign := [] }) [] (fun n h => by simp at h) _ ?_ (List.Perm.refl _) rfl
    show ((t.denote sys).init b >>= fun s => _) w = _
    rw [M.bind_apply, hi]
    rfl
  | append_singleton log x ih =>
    obtain ⟨i, c, r⟩ := x
    intro hres hask
    simp only [List.map_append, List.map_cons, List.map_nil, replay_append, replay] at hres ⊢
    obtain ⟨h1, h2⟩ := List.append_inj' hres rfl
    have h3 : ((C.body c).run (replay C (.ok s w1) (log.map (·.2.1))).2).1 = r := by simpa using h2
    have hE := ih h1 (fun pre i c r post e => hask pre i c r (post ++ [_]) (by rw [e, List.append_assoc, List.cons_append]))
    have hlaw := hask log i c r [] rfl
    rw [heldAll_append, ← h3]
    refine explained_step hwf hs hC hE i c ?_
    cases c with
    | allocate n => exact hlaw
    | deallocate p n =>
      dsimp only [LawfulCall] at hlaw ⊢
      unfold held at hlaw
      have e := part_heldAll i log []
      rw [show part i [] = [] from rfl] at e
      rw [← e] at hlaw
      obtain ⟨g, hg1, hg2⟩ := List.mem_map.1 hlaw
      obtain ⟨hg3, hg4⟩ := List.mem_filter.1 hg1
      have : g.1 = i := by simpa using hg4
      obtain ⟨g1, g2⟩ := g
      cases hg2
      cases this
      exact hg3
    | construct => exact hlaw
    | destroy => exact hlaw
    | owns => exact hlaw

theorem pairwise_of_ne {α} {R : α → α → Prop} (hsymm : ∀ a b, R a b → R b a) {l : List α} (h : l.Pairwise R) {x y : α} (hx : x ∈ l) (hy : y ∈ l)
    (hne : x ≠ y) : R x y := by
  induction h with
  | nil => cases hx
  | cons h1 _ ih =>
    rcases List.mem_cons.1 hx with hx' | hx' <;> rcases List.mem_cons.1 hy with hy' | hy'
    · exact absurd (hx'.trans hy'.symm) hne
    · rw [hx']; exact h1 _ hy'
    · rw [hy']; exact hsymm _ _ (h1 _ hx')
    · exact ih hx' hy'

/-! ### C64 -/

/-- **C64.** Any number of threads share one `threaded` allocator of any well-formed composition, created at `b`; each allocates, and gives
back blocks it holds. Whatever the schedule: at every moment all blocks held by all threads are non-null, aligned, inside the address
space, and no two of them overlap, be they of one thread or of different ones; and whenever no call is running, the allocator has
not run into undefined behaviour (a crash can only follow a failed `malloc`), and every byte of every held block is
accessible memory. -/
theorem C64_threads_get_disjoint_blocks (sys : Sys) (t : AllocTy) (hwf : t.WF) (b : Nat) (w : World) (hs : Storage w b t.size)
    (s : (t.denote sys).St) (w1 : World) (hi : (t.denote sys).init b w = .ok s w1)
    (C : Calls (Res (t.denote sys).St) Nat TCall) (hC : IsThreaded (t.denote sys) C)
    (prog : Nat → List (TCall × Nat) → Option TCall) (hprog : Lawful t prog) (sched : List Nat) :
    let m := (Mach.start (.ok s w1)).run C prog sched
    (∀ i, (held (m.threads i).hist).Pairwise NoOverlap) ∧
    (∀ i j, i ≠ j → ∀ x ∈ held (m.threads i).hist, ∀ y ∈ held (m.threads j).hist, NoOverlap x y) ∧
    (∀ i, ∀ x ∈ held (m.threads i).hist, x.1 ≠ 0 ∧ x.1 % 16 = 0 ∧ x.1 + x.2 < 2 ^ 64) ∧
    ((∀ i c a, (m.threads i).phase ≠ .running c a) →
      match m.mem with
      | .ok _ w' => ∀ i, ∀ x ∈ held (m.threads i).hist, ∀ k, k < x.2 → (w'.heap.b (x.1 + k)).isSome = true
      | .oom w' => w'.failed = true
      | .ub => False) := by
  intro m
  have hseq : Sequential C prog (.ok s w1) m := by
    refine C28_exclusive_construct_partial C prog _ sched ?_
    intro pre post _ i j c d a a' hr hl _
    have hask := asked_run C prog pre (Mach.start (.ok s w1)) (by intro t c h; simp [Mach.start] at h) i c (.inr ⟨a, hr⟩)
    have hlaw := hprog i _ c hask
    rw [hC.locked] at hl
    cases c <;> first | exact hlaw.elim | cases hl
  have hE := explained_log hwf hs hC hi m.log hseq.results (fun pre i c r post e => by
    refine hprog i _ c (hseq.follows i _ c r ((post.filter (·.1 == i)).map (·.2)) ?_)
    rw [hseq.order, e]
    simp)
  have hpart : ∀ i, held (m.threads i).hist = part i (heldAll [] m.log) := by
    intro i
    rw [part_heldAll, hseq.order]
    rfl
  obtain ⟨hg1, hg2⟩ := hE.good hwf hs
  have hsub : ∀ i x, x ∈ held (m.threads i).hist → (i, x) ∈ heldAll [] m.log := by
    intro i x hx
    rw [hpart] at hx
    obtain ⟨g, h1, rfl⟩ := List.mem_map.1 hx
    obtain ⟨h2, h3⟩ := List.mem_filter.1 h1
    have : g.1 = i := by simpa using h3
    cases this
    exact h2
  have hsub' : ∀ i x, x ∈ held (m.threads i).hist → x ∈ (heldAll [] m.log).map (·.2) :=
    fun i x hx => List.mem_map.2 ⟨_, hsub i x hx, rfl⟩
  refine ⟨?_, ?_, ?_, ?_⟩
  · intro i
    rw [hpart]
    exact hg1.sublist (List.filter_sublist.map _)
  · intro i j hij x hx y hy
    rw [List.pairwise_map] at hg1
    exact pairwise_of_ne (fun _ _ h => h.symm) hg1 (hsub i x hx) (hsub j y hy) (fun e => hij (congrArg Prod.fst e))
  · intro i x hx
    exact hg2 x (hsub' i x hx)
  · intro hq
    rw [hseq.state hq] at hE
    revert hE
    cases m.mem with
    | ub => intro hE; cases hE
    | oom w' => intro hE; cases hE; assumption
    | ok s' w' =>
      intro hE i x hx k hk
      cases hE with
      | ok ops hops c _ hp hperm _ =>
        obtain ⟨a, ha, rfl⟩ := List.mem_map.1 (hperm.mem_iff.2 (hsub' i x hx))
        have := C04_contents_preserved sys t hwf b w hs ops hops c w' hp a (List.mem_append.2 (.inl ha)) k hk
        show (w'.heap.b (a.1 + k)).isSome = true
        rw [this]
        rfl

/-! ### Non-vacuity -/

/-- a call of `A`, as a function -/
def TCall.exec {A : Allocator} (c : TCall) : Res A.St → Nat × Res A.St
  | .ok s w =>
    match c.onAlloc s w with
    | .ok (r, s') w' => (r, .ok s' w')
    | .oom w' => (0, .oom w')
    | .ub => (0, .ub)
  | .oom w => (0, .oom w)
  | .ub => (0, .ub)

/-- `threaded<A>` where a call reads the state first, and writes the new one in a second step -/
def slowThreaded (A : Allocator) (locked : TCall → Bool) : Calls (Res A.St) Nat TCall where
  body c := .step id fun r => .step (fun _ => (c.exec r).2) fun _ => .done (c.exec r).1
  locked := locked

theorem slowThreaded_isThreaded (A : Allocator) : IsThreaded A (slowThreaded A TCall.locked) := by
  refine ⟨fun _ => rfl, ?_, fun _ _ => rfl, fun _ => rfl⟩
  intro c s w
  show ((c.exec (.ok s w)).1, (c.exec (.ok s w)).2) = _
  rfl

/-- Two threads: each allocates 100 bytes, then 24 bytes, then gives back the block it got last. -/
def twoAllocators : Nat → List (TCall × Nat) → Option TCall := fun i h =>
  if i < 2 then
    match h.length with
    | 0 => some (.allocate 100)
    | 1 => some (.allocate 24)
    | 2 => (held h).head?.map fun x => .deallocate x.1 x.2
    | _ => none
  else none

example : Lawful (.threaded (.fallback (.linear 256) .mallocator)) twoAllocators := by
  intro i h c e
  unfold twoAllocators at e
  split at e
  · split at e
    · cases e; exact ⟨by decide, by decide⟩
    · cases e; exact ⟨by decide, by decide⟩
    · cases hh : (held h).head? with
      | none => rw [hh] at e; cases e
      | some x => rw [hh] at e; cases e; exact List.mem_of_head? hh
    · cases e
  · cases e

/-- the memory of `threaded<linear_allocator<256>>` at address 4096 -/
def demoThreads (locked : TCall → Bool) (sched : List Nat) : Mach (Res (linear 256).St) Nat TCall :=
  (Mach.start (.ok ⟨4096, 4096, 0⟩ (demoWorld 512))).run (slowThreaded (linear 256) locked) twoAllocators sched

/-- the calls overlap in time, and the lock keeps the blocks apart … -/
example : let m := demoThreads TCall.locked [0, 1, 0, 0, 1, 0, 0, 1, 1, 1, 1]
    held (m.threads 0).hist = [(4096, 100)] ∧ held (m.threads 1).hist = [(4208, 100)] := by
  decide

/-- … without the lock both threads get the same block -/
example : let m := demoThreads (fun _ => false) [0, 1, 0, 1, 0, 1, 0, 1, 0, 1]
    held (m.threads 0).hist = [(4096, 100)] ∧ held (m.threads 1).hist = [(4096, 100)] := by
  decide

end KTL
