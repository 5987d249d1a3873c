import Verif.Spec.Firm

/- C80: containers over `overflow`. -/
namespace KTL

/-- Programs with vectors up to, but without, the destruction of the allocator. Proof helper, not code. -/
def vmain (sz : Nat) (A : Allocator) (b : Nat) (ops : List VOp) : M A.St := do
  let c ← vplay sz A b ops
  Vecs.destroyAll sz c.st c.vs

/-- Programs with arrays up to, but without, the destruction of the allocator. Proof helper, not code. -/
def amain (sz : Nat) (A : Allocator) (b : Nat) (ops : List ArrOp) : M A.St := do
  let c ← aplay sz A b ops
  Arrs.destroyAll sz c.st c.vs

theorem firm_vmain (sz : Nat) (A : Allocator) (b : Nat) (ops : List VOp) : vmain sz (firm A) b ops = vmain sz A b ops := by
  unfold vmain
  rw [← firm_vplay sz A b ops]
  unfold soften
  rw [bind_assoc]
  exact congrArg _ (funext fun c => firm_destroyAll sz A c.st c.vs)

theorem firm_amain (sz : Nat) (A : Allocator) (b : Nat) (ops : List ArrOp) : amain sz (firm A) b ops = amain sz A b ops := by
  unfold amain
  rw [← firm_aplay sz A b ops]
  unfold asoften
  rw [bind_assoc]
  refine congrArg _ (funext fun c => ?_)
  rw [pure_bind, Arrs.destroyAll_vec, Arrs.destroyAll_vec]
  exact firm_destroyAll sz A c.st _

theorem vmain_spec {A : Allocator} {fA : Nat → Prop} (hA : Sound A fA) (b sz : Nat) (hz : 0 < sz) (ops : List VOp)
    (hfit : ∀ n, 0 < n → n ≤ 2 * weights ops → sz * n < W64 ∧ fA (sz * n)) (h0 : (∃ o ∈ ops, o.mayBeEmpty = true) → fA 0)
    (h1 : b ≠ 0) (h2 : b % 16 = 0) (h3 : b + A.objSize < W64) :
    Triple (bytes b A.objSize) (vmain sz A b ops) (fun s => hA.Inv b s []) := by
  refine Triple.bind (vplay_spec hA b sz hz ops hfit h0 h1 h2 h3) (fun c => ?_)
  refine Triple.exists fun S => Triple.and fun _ => Triple.exists fun Γ => Triple.and fun hv => Triple.and fun _ => Triple.and fun _ =>
    Triple.and fun hok => ?_
  rw [hv]
  have hW : ∀ n, n ≤ 2 * weights ops → sz * n < W64 := fun n hn => by
    by_cases h : n = 0
    · subst h; rw [Nat.mul_zero]; decide
    · exact (hfit n (by omega) hn).1
  exact destroyAll_spec hA b sz _ hz hW Γ hok c.st

theorem amain_spec {A : Allocator} {fA : Nat → Prop} (hA : Sound A fA) (b sz : Nat) (hz : 0 < sz) (ops : List ArrOp)
    (hfit : ∀ n, 0 < n → n ≤ 2 * aweights ops → sz * n < W64 ∧ fA (sz * n)) (h0 : (∃ o ∈ ops, o.mayBeEmpty = true) → fA 0)
    (h1 : b ≠ 0) (h2 : b % 16 = 0) (h3 : b + A.objSize < W64) :
    Triple (bytes b A.objSize) (amain sz A b ops) (fun s => hA.Inv b s []) := by
  refine Triple.bind (aplay_spec hA b sz hz ops hfit h0 h1 h2 h3) (fun c => ?_)
  refine Triple.exists fun S => Triple.and fun _ => Triple.exists fun Γ => Triple.and fun hv => Triple.and fun _ => Triple.and fun _ =>
    Triple.and fun hok => ?_
  rw [Arrs.destroyAll_vec, show c.vs.map Arr.vec = Γ.map Ghost.v from hv]
  have hW : ∀ n, n ≤ 2 * aweights ops → sz * n < W64 := fun n hn => by
    by_cases h : n = 0
    · subst h; rw [Nat.mul_zero]; decide
    · exact (hfit n (by omega) hn).1
  exact destroyAll_spec hA b sz _ hz hW Γ hok c.st

/-- A computation that says only corruption and raises no alarm says nothing. -/
theorem quiet_of {w w' : World} (hout : w.out = []) (hs : ∃ l, w'.out = w.out ++ l ∧ ∀ m ∈ l, Msg.isCorruption m) (hn : NoAlarm w w') : w'.out = [] := by
  obtain ⟨l, e, hl⟩ := hs
  rw [hout, List.nil_append] at e
  rw [e]
  cases l with
  | nil => rfl
  | cons m l =>
    have h1 := hl m (by simp)
    cases m with
    | corruption p n x y =>
      have := hn p n x y (by rw [e]; simp)
      rw [hout] at this
      cases this
    | _ => exact h1.elim

section
variable {A : Allocator} {f : Nat → Prop} (hO : Sound (overflow A) f) (hA : Hush Msg.isCorruption A) (hF : Hush (fun _ => False) A)
  (b : Nat) (w : World) (hs : Storage w b (overflow A).objSize) (hout : w.out = [])
include hF hs hout

/-- The end of a program that has given everything back. -/
theorem silent_end (m : M (overflow A).St) (hsays : Says Msg.isCorruption m)
    (hm : Triple (bytes b (overflow A).objSize) m (fun s => (firm_sound hO).Inv b s [])) :
    match (m >>= fun s => (overflow A).fini s) w with
    | .ok _ w' => w'.out = []
    | .oom w' => w'.failed = true
    | .ub => False := by
  obtain ⟨h0, hf, hd, he, hb, hfb, hft⟩ := storage_split hs
  have h1 := hm w h0 hf hd he hb
  rw [M.bind_apply]
  cases hr : m w with
  | ub => rw [hr] at h1; exact h1
  | oom w' => rw [hr] at h1; exact h1
  | ok s w1 =>
    rw [hr] at h1
    obtain ⟨⟨h', hd', he', ⟨hal, hco⟩, hI⟩, hna⟩ := h1
    have hq : w1.out = [] := quiet_of hout (hsays w s w1 hr) hna
    have h2 := hO.fini_spec b s w1 h' hf hd' he' hI
    have e : (overflow A).fini s w1 = A.fini s.a w1 := by
      refine (overflow_fini A s w1).trans ?_
      have : s.allocs = 0 := hal
      rw [this, hco]
      simp [leakReport, logicReport]
    show match (overflow A).fini s w1 with
      | .ok _ w' => w'.out = []
      | .oom w' => w'.failed = true
      | .ub => False
    cases hfin : (overflow A).fini s w1 with
    | ub => rw [hfin] at h2; exact h2
    | oom w' => rw [hfin] at h2; exact h2
    | ok x w' =>
      rw [e] at hfin
      obtain ⟨l, e1, e2⟩ := hF.fini s.a w1 x w' hfin
      show w'.out = []
      rw [e1, hq]
      cases l with
      | nil => rfl
      | cons m l => exact (e2 m (by simp)).elim

include hO hA

theorem silent_vectors (sz : Nat) (hz : 0 < sz) (ops : List VOp)
    (hfit : ∀ n, 0 < n → n ≤ 2 * weights ops → sz * n < W64 ∧ f (sz * n)) (h0 : (∃ o ∈ ops, o.mayBeEmpty = true) → f 0) :
    match vlife sz (overflow A) b ops w with
    | .ok _ w' => w'.out = []
    | .oom w' => w'.failed = true
    | .ub => False := by
  have hm := vmain_spec (firm_sound hO) b sz hz ops hfit h0 hs.1 hs.2.1 hs.2.2.1
  rw [firm_vmain] at hm
  have := silent_end hO hF b w hs hout (vmain sz (overflow A) b ops)
    (Says.bind (Says.bind (overflow_says_init hA b) fun s =>
      Vecs.says_run (overflow_says_alloc hA) (overflow_says_dealloc hA) sz ⟨s, [], []⟩ ops) fun c =>
      Vecs.says_destroyAll (overflow_says_dealloc hA) sz c.st c.vs) hm
  unfold vlife
  unfold vmain at this
  rw [bind_assoc] at this
  exact this

theorem silent_arrays (sz : Nat) (hz : 0 < sz) (ops : List ArrOp)
    (hfit : ∀ n, 0 < n → n ≤ 2 * aweights ops → sz * n < W64 ∧ f (sz * n)) (h0 : (∃ o ∈ ops, o.mayBeEmpty = true) → f 0) :
    match alife sz (overflow A) b ops w with
    | .ok _ w' => w'.out = []
    | .oom w' => w'.failed = true
    | .ub => False := by
  have hm := amain_spec (firm_sound hO) b sz hz ops hfit h0 hs.1 hs.2.1 hs.2.2.1
  rw [firm_amain] at hm
  have := silent_end hO hF b w hs hout (amain sz (overflow A) b ops)
    (Says.bind (Says.bind (overflow_says_init hA b) fun s =>
      Arrs.says_run (overflow_says_alloc hA) (overflow_says_dealloc hA) sz ⟨s, [], []⟩ ops) fun c =>
      Arrs.says_destroyAll (overflow_says_dealloc hA) sz c.st c.vs) hm
  unfold alife
  unfold amain at this
  rw [bind_assoc] at this
  exact this

end

/-- **C80.** A program with any number of vectors over `overflow<u>` that destroys them before the allocator gets no report of any kind:
no corruption, no leak, no logic error. Here `u` is any composition without another `overflow` inside. -/
theorem C80_vectors_not_reported (sys : Sys) (u : AllocTy) (hu : u.noStream = true) (hwf : u.WF) (b : Nat) (w : World)
    (hs : Storage w b (AllocTy.overflow u).size) (hout : w.out = []) (sz : Nat) (hz : 0 < sz) (ops : List VOp) (hops : VSane (.overflow u) sz ops) :
    match vlife sz ((AllocTy.overflow u).denote sys) b ops w with
    | .ok _ w' => w'.out = []
    | .oom w' => w'.failed = true
    | .ub => False := by
  have hfit := hops.fits (t := .overflow u) hwf hz sys.plat
  rw [← (AllocTy.overflow u).objSize_eq sys] at hs
  exact silent_vectors ((AllocTy.overflow u).sound sys hwf) (u.hush sys hu) (u.hush sys hu) b w hs hout sz hz ops hfit.1 hfit.2

/-- **C80 for arrays.** -/
theorem C80_arrays_not_reported (sys : Sys) (u : AllocTy) (hu : u.noStream = true) (hwf : u.WF) (b : Nat) (w : World)
    (hs : Storage w b (AllocTy.overflow u).size) (hout : w.out = []) (sz : Nat) (hz : 0 < sz) (ops : List ArrOp) (hops : ASane (.overflow u) sz ops) :
    match alife sz ((AllocTy.overflow u).denote sys) b ops w with
    | .ok _ w' => w'.out = []
    | .oom w' => w'.failed = true
    | .ub => False := by
  have hfit := hops.fits (t := .overflow u) hwf hz sys.plat
  rw [← (AllocTy.overflow u).objSize_eq sys] at hs
  exact silent_arrays ((AllocTy.overflow u).sound sys hwf) (u.hush sys hu) (u.hush sys hu) b w hs hout sz hz ops hfit.1 hfit.2

theorem sizes_append (L L' : List (Nat × Nat)) : sizes (L ++ L') = sizes L + sizes L' := by
  unfold sizes; rw [List.map_append, List.sum_append]

theorem sizes_ghosts {sz T : Nat} (hz : 0 < sz) (Γ : List Ghost) (hok : ∀ g ∈ Γ, g.Ok sz T) :
    sizes ((Γ.flatMap Ghost.own).map blk) = ((Γ.map Ghost.v).map fun v => v.capacity sz * sz).sum := by
  induction Γ with
  | nil => rfl
  | cons g Γ ih =>
    have hg := (hok g (by simp)).rep
    rw [List.flatMap_cons, List.map_append, sizes_append, ih (fun g hg => hok g (by simp [hg]))]
    simp only [List.map_cons, List.sum_cons]
    congr 1
    rw [hg.capacity_eq hz]
    unfold Ghost.own
    by_cases hb : g.v.beg = 0
    · rw [hg.null hb]
      unfold Vec.own
      simp [hb, sizes]
    · rw [Vec.own_pos hb]
      simp [sizes, blk, hg.len]

theorem leaked_vectors {A : Allocator} {f : Nat → Prop} (hO : Sound (overflow A) f) (hA : Hush Msg.isCorruption A) (b : Nat) (w : World)
    (hs : Storage w b (overflow A).objSize) (hout : w.out = []) (sz : Nat) (hz : 0 < sz) (ops : List VOp)
    (hfit : ∀ n, 0 < n → n ≤ 2 * weights ops → sz * n < W64 ∧ f (sz * n)) (hz0 : (∃ o ∈ ops, o.mayBeEmpty = true) → f 0)
    (c : Vecs (overflow A)) (w' : World) (hrun : vplay sz (overflow A) b ops w = .ok c w') :
    w'.out = [] ∧ (overflow A).fini c.st w' = A.fini c.st.a
      { w' with out := leakReport (Int.bmod ((c.vs.map fun v => v.capacity sz * sz).sum : Nat) (2 ^ 64)) } := by
  obtain ⟨h0, hf, hd, he, hb, hfb, hft⟩ := storage_split hs
  have hm := vplay_spec (firm_sound hO) b sz hz ops hfit hz0 hs.1 hs.2.1 hs.2.2.1 w h0 hf hd he hb
  have hq : Says Msg.isCorruption (vplay sz (overflow A) b ops) := Says.bind (overflow_says_init hA b) fun s =>
    Vecs.says_run (overflow_says_alloc hA) (overflow_says_dealloc hA) sz ⟨s, [], []⟩ ops
  have hrun' := hrun
  rw [← firm_vplay] at hrun'
  obtain ⟨c', w1, e1, e2⟩ := bind_ok hrun'
  cases e2
  rw [e1] at hm
  obtain ⟨⟨h', hd', he', S, _, Γ, hv, hx, hseen, hok, g1, g2, hdp, rfl, ⟨⟨hal, hco⟩, hI⟩, hB⟩, hna⟩ := hm
  have hq' := quiet_of hout (hq w _ w' hrun) hna
  refine ⟨hq', (overflow_fini A c'.soft.st w').trans ?_⟩
  have ha : c'.soft.st.allocs = Int.bmod ((c'.soft.vs.map fun v => v.capacity sz * sz).sum : Nat) (2 ^ 64) := by
    refine hal.trans ?_
    have hw (x : Int) : Overflow.wrap64 x = Int.bmod x (2 ^ 64) := by simp only [Overflow.wrap64, Nat.reducePow]
    rw [sizes_ghosts hz Γ hok, ← hv, hw]
    generalize (2 : Nat) ^ 64 = K
    rfl
  have hc : c'.soft.st.constructs = 0 := hco
  rw [hq', ha, hc]
  generalize Int.bmod (((c'.soft.vs.map fun v => v.capacity sz * sz).sum : Nat) : Int) (2 ^ 64) = z
  rw [List.nil_append]
  exact congrArg _ (congrArg (fun o => { w' with out := o }) (List.append_nil _))

/-- **C80, the amount.** If the allocator is destroyed before the vectors, it reports exactly the bytes of their capacities (modulo `2^64`, as
an `int64_t`), and nothing else: nothing has been printed before. -/
theorem C80_leaked_vectors_reported (sys : Sys) (u : AllocTy) (hu : u.noStream = true) (hwf : u.WF) (b : Nat) (w : World)
    (hs : Storage w b (AllocTy.overflow u).size) (hout : w.out = []) (sz : Nat) (hz : 0 < sz) (ops : List VOp) (hops : VSane (.overflow u) sz ops)
    (c : Vecs (overflow (u.denote sys))) (w' : World) (hrun : vplay sz (overflow (u.denote sys)) b ops w = .ok c w') :
    w'.out = [] ∧ (overflow (u.denote sys)).fini c.st w' = (u.denote sys).fini c.st.a
      { w' with out := leakReport (Int.bmod ((c.vs.map fun v => v.capacity sz * sz).sum : Nat) (2 ^ 64)) } := by
  have hfit := hops.fits (t := .overflow u) hwf hz sys.plat
  rw [← (AllocTy.overflow u).objSize_eq sys] at hs
  exact leaked_vectors ((AllocTy.overflow u).sound sys hwf) (u.hush sys hu) b w hs hout sz hz ops hfit.1 hfit.2 c w' hrun

/-- What the examples do: two vectors, one grown, one moved. -/
def demoSilent : List VOp := [.newRange [[1, 2], [3, 4]], .push 0 [5, 6], .copy 0, .move 1, .reserve 0 5]

/-- not vacuous: a program over `overflow<mallocator>` and its hypotheses -/
example : (AllocTy.mallocator.noStream = true ∧ AllocTy.mallocator.WF ∧ Storage (demoWorld 32) 4096 (AllocTy.overflow .mallocator).size ∧
    (demoWorld 32).out = []) ∧ VSane (.overflow .mallocator) 2 demoSilent := by
  refine ⟨⟨rfl, trivial, demoStorage 32 (by decide), rfl⟩, by decide, ?_⟩
  rintro ⟨o, ho, h⟩
  rfl

/-- the program ends; nothing is printed -/
example : ((vlife 2 (overflow (mallocator (demoSys .direct))) 4096 demoSilent (demoWorld 32)).test fun _ w => decide (w.out = [])) = true := by
  decide +kernel

/-- without the destruction of the vectors the report is 10 + 6 bytes -/
example : ((do
      let c ← vplay 2 (overflow (mallocator (demoSys .direct))) 4096 demoSilent
      (overflow (mallocator (demoSys .direct))).fini c.st) (demoWorld 32)).test (fun _ w => decide (w.out = [Msg.leak 16])) = true := by
  decide +kernel

/-- C80 does not extend to vectors with allocators of their own: move construction from another allocator gives the block back with the wrong size
(C47), and `overflow` reports corruption and too many frees although the program is in order. -/
theorem C80_move_with_reported : ((do
      let c ← vplay 8 (overflow (linear 512)) 4096 [.newRange [[1, 2, 3, 4, 5, 6, 7, 8]]]
      match c.vs with
      | [v] => do
        let r ← v.moveWith 8 (overflow (linear 512)) c.st (mallocator (demoSys .direct)) ()
        (overflow (linear 512)).fini r.1
      | _ => M.oom) (demoWorld 576)).test (fun _ w => decide (w.out = [Msg.corruption 4160 64 0 64, Msg.leak (-56)])) = true := by decide +kernel

end KTL
