import Verif.Spec.Deaf
import Verif.Spec.SaysHeap
import Verif.Props.BinaryHeap
import Verif.Props.Silent

/- C83: binary heaps over `overflow`, with the calls of `construct` and `destroy`. -/
namespace KTL

variable {α : Type}

/-- Programs with heaps up to, but without, the destruction of the allocator. Proof helper, not code. -/
def hmain (E : Elt α) (comp eq : α → α → Bool) (A : Allocator) (b : Nat) (ops : List (BOp α)) : M (A.St × Objs α) := do
  let c ← hplay E comp eq A b ops
  BHeaps.destroyAll E c.st c.objs c.hs

/-- Proof helper, not code. -/
def hmainC (E : Elt α) (comp eq : α → α → Bool) (A : Allocator) (b : Nat) (ops : List (BOp α)) : M (A.St × Objs α) := do
  let c ← hplayC E comp eq A b ops
  BHeaps.destroyAllC E c.st c.objs c.hs

theorem Counts.main {A B : Allocator} (C : Counts A B) (E : Elt α) (comp eq : α → α → Bool) (b : Nat) (ops : List (BOp α)) :
    InStep (hmain E comp eq A b ops) (hmainC E comp eq B b ops) (fun x y => y.2 = x.2 ∧ C.R 0 x.1 y.1) := by
  refine InStep.bind (C.play E comp eq b ops) fun c d h => ?_
  rw [h.objs, h.hs]
  refine (C.destroyHeaps h.count c.objs c.hs h.null).mono fun x y ⟨e, hr⟩ => ⟨e, C.cast hr (by omega)⟩

theorem hmain_spec {A : Allocator} {fA : Nat → Prop} (hA : Sound A fA) (b : Nat) {E : Elt α} (hE : E.Ok) (comp eq : α → α → Bool) (ops : List (BOp α))
    (hfit : ∀ n, 0 < n → n ≤ 2 * hweights ops → E.size * n < W64 ∧ fA (E.size * n)) (h0 : (∃ o ∈ ops, o.mayBeEmpty = true) → fA 0)
    (hpop : E.trivial = true ∨ popsLast [] ops = false) (h1 : b ≠ 0) (h2 : b % 16 = 0) (h3 : b + A.objSize < W64) :
    Triple (bytes b A.objSize) (hmain E comp eq A b ops) (fun r x => (∀ p, r.2 p = none) ∧ hA.Inv b r.1 [] x) := by
  refine Triple.bind (hplay_spec hA b hE comp eq ops hfit h0 hpop h1 h2 h3) (fun c => ?_)
  refine Triple.exists fun S => Triple.and fun _ => Triple.exists fun ns => Triple.exists fun Γ => Triple.and fun hv => Triple.and fun _ => Triple.and fun _ =>
    Triple.and fun _ => Triple.and fun hok => ?_
  rw [hv]
  have hW : ∀ n, n ≤ 2 * hweights ops → E.size * n < W64 := fun n hn => by
    by_cases h : n = 0
    · subst h; rw [Nat.mul_zero]; decide
    · exact (hfit n (by omega) hn).1
  have := hdestroyAll_spec hA b _ hE hW Γ hok c.st c.objs []
  rw [List.append_nil] at this
  exact this.post fun r x hx => tpool_end hx

theorem sizes_match {E : Elt α} {Γ : List (Nat × Slots α)} {R : List (Nat × List UInt8)} (h : E.Match Γ R) :
    sizes (R.map blk) = (Γ.map fun x => x.2.length * E.size).sum := by
  induction h with
  | nil => rfl
  | cons h _ ih =>
    simp only [sizes, List.map_cons, List.sum_cons, blk] at ih ⊢
    rw [ih, h.len]

theorem sizes_heaps {comp : α → α → Bool} {T : Nat} (E : Elt α) (Γ : List (HGhost α)) (hok : ∀ g ∈ Γ, g.Fine comp T) :
    ((Γ.flatMap HGhost.own).map fun x => x.2.length * E.size).sum = ((Γ.map HGhost.h).map fun h => h.cap * E.size).sum := by
  induction Γ with
  | nil => rfl
  | cons g Γ ih =>
    have hg := (hok g (by simp)).ok
    rw [List.flatMap_cons, List.map_append, List.sum_append, ih fun g hg => hok g (by simp [hg])]
    simp only [List.map_cons, List.sum_cons]
    congr 1
    by_cases hb : g.h.beg = 0
    · rw [HGhost.own_null hb, hg.null hb]; simp
    · rw [HGhost.own_pos hb, hg.cap]; simp [live]

section
variable {A : Allocator} (hA : Hush Msg.isCorruption A) (E : Elt α) (comp eq : α → α → Bool) (b : Nat) (ops : List (BOp α))
include hA

theorem firm_says_alloc (s : (firm (overflow A)).St) (n : Nat) : Says Msg.isCorruption ((firm (overflow A)).alloc s n) :=
  Says.bind (overflow_says_alloc hA _ _) fun _ => Says.ite Says.oom (Says.pure _)

theorem firm_says_hplay : Says Msg.isCorruption (hplay E comp eq (firm (overflow A)) b ops) :=
  Says.bind (overflow_says_init hA b) fun _ => BHeaps.says_run (A := firm (overflow A)) (firm_says_alloc hA) (overflow_says_dealloc hA) comp eq _ ops

theorem firm_says_hmain : Says Msg.isCorruption (hmain E comp eq (firm (overflow A)) b ops) :=
  Says.bind (firm_says_hplay hA E comp eq b ops) fun c => BHeaps.says_destroyAll (A := firm (overflow A)) (overflow_says_dealloc hA) c.st c.objs c.hs

end

theorem bump_zero {β : Type} (s : Overflow.St β) : s.bump 0 = s := by
  cases s
  simp [Overflow.St.bump]

theorem silent_heaps {A : Allocator} {f : Nat → Prop} (hO : Sound (overflow A) f) (hA : Hush Msg.isCorruption A) (hF : Hush (fun _ => False) A)
    (h1 : A.construct = none) (h2 : A.destroy = none) (b : Nat) (w : World) (hs : Storage w b (overflow A).objSize) (hout : w.out = [])
    {E : Elt α} (hE : E.Ok) (comp eq : α → α → Bool) (ops : List (BOp α))
    (hfit : ∀ n, 0 < n → n ≤ 2 * hweights ops → E.size * n < W64 ∧ f (E.size * n)) (h0 : (∃ o ∈ ops, o.mayBeEmpty = true) → f 0)
    (hpop : E.trivial = true ∨ popsLast [] ops = false) :
    match hlifeC E comp eq (overflow A) b ops w with
    | .ok o w' => w'.out = [] ∧ ∀ p, o p = none
    | .oom w' => w'.failed = true
    | .ub => False := by
  have hm := hmain_spec (firm_sound hO) b hE comp eq ops hfit h0 hpop hs.1 hs.2.1 hs.2.2.1
  have hT : Triple (bytes b (overflow A).objSize) (do
      let x ← hmain E comp eq (firm (overflow A)) b ops
      pure x.1) (fun s => (firm_sound hO).Inv b s []) := Triple.bind hm fun r => Triple.pure _ fun x hx => hx.2
  have hend := silent_end hO hF b w hs hout _ (Says.bind (firm_says_hmain hA E comp eq b ops) fun _ => Says.pure _) hT
  have hfol := (overflow_counts h1 h2).main E comp eq b ops w
  have heq : hlifeC E comp eq (overflow A) b ops = (hmainC E comp eq (overflow A) b ops >>= fun x => ((overflow A).fini x.1 >>= fun _ => pure x.2)) := by
    unfold hlifeC hmainC
    rw [bind_assoc]
  obtain ⟨g, hf, hd, he, hb, _, _⟩ := storage_split hs
  have hm' := hm w g hf hd he hb
  rw [heq, M.bind_apply]
  rw [M.bind_apply, M.bind_apply] at hend
  cases hr : hmain E comp eq (firm (overflow A)) b ops w with
  | ub => rw [hr] at hm'; exact hm'.elim
  | oom w' =>
    rw [hr] at hfol hm'
    rw [hfol]
    exact hm'
  | ok x w1 =>
    rw [hr] at hfol hm' hend
    obtain ⟨y, e, e2, e1⟩ := hfol
    obtain ⟨⟨_, _, _, hnone, _⟩, _⟩ := hm'
    replace e1 : y.1 = x.1 := (show y.1 = Overflow.St.bump 0 (x.1 : Overflow.St A.St) from e1).trans (bump_zero _)
    rw [e]
    simp only
    rw [e1, e2, M.bind_apply]
    replace hend : match (overflow A).fini x.1 w1 with
      | .ok _ w' => w'.out = []
      | .oom w' => w'.failed = true
      | .ub => False := hend
    cases hfin : (overflow A).fini x.1 w1 with
    | ub => rw [hfin] at hend; exact hend
    | oom w' => rw [hfin] at hend; exact hend
    | ok u w' => rw [hfin] at hend; exact ⟨hend, hnone⟩

/-- how programs with the calls end -/
theorem hplayC_exact (sys : Sys) (t : AllocTy) (hwf : t.WF) {A : Allocator} (hO : Sound (overflow A) (t.fits sys.plat)) (hsz : (overflow A).objSize = t.size)
    (h1 : A.construct = none) (h2 : A.destroy = none) {b : Nat} {w : World} (hs : Storage w b t.size) {E : Elt α} (hE : E.Ok) (comp eq : α → α → Bool)
    (ops : List (BOp α)) (hops : HSane t E ops) :
    match hplayC E comp eq (overflow A) b ops w with
    | .ok _ _ => E.trivial = true ∨ popsLast [] ops = false
    | .oom w' => w'.failed = true
    | .ub => E.trivial = false ∧ popsLast [] ops = true := by
  have hex := hplay_exact sys t hwf (firm_sound hO) hsz b w hs hE comp eq ops hops
  have hfol := (overflow_counts h1 h2).play E comp eq b ops w
  cases hr : hplay E comp eq (firm (overflow A)) b ops w with
  | ub => rw [hr] at hex hfol; rw [show hplayC E comp eq (overflow A) b ops w = .ub from hfol]; exact hex
  | oom w' => rw [hr] at hex hfol; rw [show hplayC E comp eq (overflow A) b ops w = .oom w' from hfol]; exact hex
  | ok c w' =>
    rw [hr] at hex hfol
    obtain ⟨d, e, _⟩ := hfol
    rw [show hplayC E comp eq (overflow A) b ops w = .ok d w' from e]; exact hex

/-- **C83.** A program with any number of binary heaps over `overflow<u>` that destroys them before the allocator gets no report of any kind:
no corruption, no leak, no logic error (calls of `construct` without `destroy` or the reverse), and no object is left. Here `u` is any composition
without another `overflow` inside. The program only stops early if memory runs out, or by popping the last element of a heap of a non-trivial
type (`C56_false`). -/
theorem C83_heaps_not_reported (sys : Sys) (u : AllocTy) (hu : u.noStream = true) (hwf : u.WF) (b : Nat) (w : World)
    (hs : Storage w b (AllocTy.overflow u).size) (hout : w.out = []) (E : Elt α) (hE : E.Ok) (comp eq : α → α → Bool) (ops : List (BOp α))
    (hops : HSane (.overflow u) E ops) :
    match hlifeC E comp eq ((AllocTy.overflow u).denote sys) b ops w with
    | .ok o w' => w'.out = [] ∧ ∀ p, o p = none
    | .oom w' => w'.failed = true
    | .ub => E.trivial = false ∧ popsLast [] ops = true := by
  have hfit := hops.fits (t := .overflow u) hwf hE sys.plat
  obtain ⟨h1, h2⟩ := u.noStream_plain sys hu
  by_cases hpop : E.trivial = true ∨ popsLast [] ops = false
  · rw [← (AllocTy.overflow u).objSize_eq sys] at hs
    have := silent_heaps ((AllocTy.overflow u).sound sys hwf) (u.hush sys hu) (u.hush sys hu) h1 h2 b w hs hout hE comp eq ops hfit.1 hfit.2 hpop
    cases hr : hlifeC E comp eq ((AllocTy.overflow u).denote sys) b ops w with
    | ub => exact (show False by have h := this; rw [show hlifeC E comp eq (overflow (u.denote sys)) b ops w = .ub from hr] at h; exact h).elim
    | oom w' => have h := this; rw [show hlifeC E comp eq (overflow (u.denote sys)) b ops w = .oom w' from hr] at h; exact h
    | ok o w' => have h := this; rw [show hlifeC E comp eq (overflow (u.denote sys)) b ops w = .ok o w' from hr] at h; exact h
  · have hex := hplayC_exact sys (.overflow u) hwf (A := u.denote sys) ((AllocTy.overflow u).sound sys hwf) ((AllocTy.overflow u).objSize_eq sys) h1 h2 hs hE
      comp eq ops hops
    unfold hlifeC
    rw [M.bind_apply]
    cases hr : hplayC E comp eq ((AllocTy.overflow u).denote sys) b ops w with
    | ub => rw [show hplayC E comp eq (overflow (u.denote sys)) b ops w = .ub from hr] at hex; exact hex
    | oom w' => rw [show hplayC E comp eq (overflow (u.denote sys)) b ops w = .oom w' from hr] at hex; exact hex
    | ok c w' => rw [show hplayC E comp eq (overflow (u.denote sys)) b ops w = .ok c w' from hr] at hex; exact absurd hex hpop

theorem leaked_heaps {A : Allocator} {f : Nat → Prop} (hO : Sound (overflow A) f) (hA : Hush Msg.isCorruption A)
    (h1 : A.construct = none) (h2 : A.destroy = none) (b : Nat) (w : World) (hs : Storage w b (overflow A).objSize) (hout : w.out = [])
    {E : Elt α} (hE : E.Ok) (comp eq : α → α → Bool) (ops : List (BOp α))
    (hfit : ∀ n, 0 < n → n ≤ 2 * hweights ops → E.size * n < W64 ∧ f (E.size * n)) (h0 : (∃ o ∈ ops, o.mayBeEmpty = true) → f 0)
    (hpop : E.trivial = true ∨ popsLast [] ops = false)
    (d : BHeaps (overflow A) α) (w' : World) (hrun : hplayC E comp eq (overflow A) b ops w = .ok d w') :
    w'.out = [] ∧ (overflow A).fini d.st w' = A.fini d.st.a
      { w' with out := leakReport (Int.bmod ((d.hs.map fun h => h.cap * E.size).sum : Nat) (2 ^ 64)) ++ logicReport (d.hs.map BHeap.size).sum } := by
  obtain ⟨g, hf, hd, he, hb, _, _⟩ := storage_split hs
  have hm := hplay_spec (firm_sound hO) b hE comp eq ops hfit h0 hpop hs.1 hs.2.1 hs.2.2.1 w g hf hd he hb
  have hq := firm_says_hplay hA E comp eq b ops
  have hfol := (overflow_counts h1 h2).play E comp eq b ops w
  cases hr : hplay E comp eq (firm (overflow A)) b ops w with
  | ub => rw [hr] at hm; exact hm.elim
  | oom w1 => rw [hr] at hfol; rw [show hplayC E comp eq (overflow A) b ops w = .oom w1 from hfol] at hrun; cases hrun
  | ok c w1 =>
    rw [hr] at hfol hm
    obtain ⟨d', e, hst⟩ := hfol
    rw [show hplayC E comp eq (overflow A) b ops w = .ok d' w1 from e] at hrun
    cases hrun
    obtain ⟨⟨h', hd', he', S, _, ns, Γ, hv, _, _, _, hok, R, hmt, _, _, g1, g2, _, rfl, ⟨⟨hal, hco⟩, hI⟩, _⟩, hna⟩ := hm
    have hq' := quiet_of hout (hq w _ w' hr) hna
    refine ⟨hq', (overflow_fini A d.st w').trans ?_⟩
    have hc : d.st = Overflow.St.bump (elements c.hs) c.st := hst.count
    have hdh : d.hs = c.hs := hst.hs
    rw [sizes_match hmt, sizes_heaps E Γ hok, ← hv] at hal
    have ha : d.st.allocs = Int.bmod ((d.hs.map fun h => h.cap * E.size).sum : Nat) (2 ^ 64) := by
      rw [hc, hdh]
      refine hal.trans ?_
      have hw (x : Int) : Overflow.wrap64 x = Int.bmod x (2 ^ 64) := by simp only [Overflow.wrap64, Nat.reducePow]
      rw [hw]
    have hcn : d.st.constructs = ((d.hs.map BHeap.size).sum : Nat) := by
      rw [hc, hdh]
      show c.st.constructs + (elements c.hs : Int) = _
      rw [show c.st.constructs = 0 from hco, Int.zero_add]; rfl
    rw [hq', ha, hcn, List.nil_append]

/-- **C83, the amount.** If the allocator is destroyed before the heaps, it reports exactly the bytes of their capacities (modulo `2^64`, as
an `int64_t`) and the number of their elements, and nothing has been printed before. -/
theorem C83_leaked_heaps_reported (sys : Sys) (u : AllocTy) (hu : u.noStream = true) (hwf : u.WF) (b : Nat) (w : World)
    (hs : Storage w b (AllocTy.overflow u).size) (hout : w.out = []) (E : Elt α) (hE : E.Ok) (comp eq : α → α → Bool) (ops : List (BOp α))
    (hops : HSane (.overflow u) E ops) (d : BHeaps (overflow (u.denote sys)) α) (w' : World)
    (hrun : hplayC E comp eq (overflow (u.denote sys)) b ops w = .ok d w') :
    w'.out = [] ∧ (overflow (u.denote sys)).fini d.st w' = (u.denote sys).fini d.st.a
      { w' with out := leakReport (Int.bmod ((d.hs.map fun h => h.cap * E.size).sum : Nat) (2 ^ 64)) ++ logicReport (d.hs.map BHeap.size).sum } := by
  have hfit := hops.fits (t := .overflow u) hwf hE sys.plat
  obtain ⟨h1, h2⟩ := u.noStream_plain sys hu
  have hpop : E.trivial = true ∨ popsLast [] ops = false := by
    have hex := hplayC_exact sys (.overflow u) hwf (A := u.denote sys) ((AllocTy.overflow u).sound sys hwf) ((AllocTy.overflow u).objSize_eq sys) h1 h2 hs hE
      comp eq ops hops
    rw [hrun] at hex
    exact hex
  rw [← (AllocTy.overflow u).objSize_eq sys] at hs
  exact leaked_heaps ((AllocTy.overflow u).sound sys hwf) (u.hush sys hu) h1 h2 b w hs hout hE comp eq ops hfit.1 hfit.2 hpop d w' hrun

/-- **C83, the same programs.** The properties of heaps (C51 to C56 and others) are stated for the model in which `construct` and `destroy` do
not go through the allocator. With these calls, over every composition in which no `overflow` lies below a `cascading`, a program ends in
the same way, in the same world, with the same heaps, objects and observations. -/
theorem C83_calls_change_nothing (sys : Sys) (t : AllocTy) (ht : t.tame = true) (b : Nat) (w : World) (E : Elt α) (comp eq : α → α → Bool) (ops : List (BOp α)) :
    match hplay E comp eq (t.denote sys) b ops w with
    | .ok c w' => ∃ d, hplayC E comp eq (t.denote sys) b ops w = .ok d w' ∧ d.objs = c.objs ∧ d.hs = c.hs ∧ d.seen = c.seen
    | .oom w' => hplayC E comp eq (t.denote sys) b ops w = .oom w'
    | .ub => hplayC E comp eq (t.denote sys) b ops w = .ub := by
  have := (t.deaf sys ht).counts.play E comp eq b ops w
  cases hr : hplay E comp eq (t.denote sys) b ops w with
  | ub => rw [hr] at this; exact this
  | oom w' => rw [hr] at this; exact this
  | ok c w' =>
    rw [hr] at this
    obtain ⟨d, e, h⟩ := this
    exact ⟨d, e, h.objs, h.hs, h.seen⟩

/-- not vacuous: a program over `overflow<mallocator>` and its hypotheses -/
example : (AllocTy.mallocator.noStream = true ∧ AllocTy.mallocator.WF ∧ Storage (demoWorld 32) 4096 (AllocTy.overflow .mallocator).size ∧
    (demoWorld 32).out = []) ∧ HSane (.overflow .mallocator) demoElt demoHeapOps ∧ (AllocTy.overflow .mallocator).tame = true := by
  refine ⟨⟨rfl, trivial, demoStorage 32 (by decide), rfl⟩, ⟨by decide, fun _ => rfl⟩, rfl⟩

/-- the program ends; nothing is printed -/
example : ((hlifeC demoElt demoLess (fun a b => a == b) (overflow (mallocator (demoSys .direct))) 4096 demoHeapOps (demoWorld 32)).test
    fun _ w => decide (w.out = [])) = true := by decide +kernel

/-- without the destruction of the heaps: 2 + 18 bytes, 4 elements -/
example : ((do
      let c ← hplayC demoElt demoLess (fun a b => a == b) (overflow (mallocator (demoSys .direct))) 4096 demoHeapOps
      (overflow (mallocator (demoSys .direct))).fini c.st) (demoWorld 32)).test (fun _ w => decide (w.out = [Msg.leak 22, Msg.logic 4])) = true := by
  decide +kernel

/-- A trivial element type of two bytes. -/
def demoPair : Elt UInt8 := ⟨2, fun v => [v, v], id, id, true⟩

/-- C83 does not extend to heaps with allocators of their own: move construction from another allocator does not destroy the elements it has copied
from and gives the block back with the wrong size (C47, C62); `overflow` reports corruption, too many frees and a logic error although the program is in order. -/
theorem C83_move_with_reported : ((do
      let c ← hplayC demoPair demoLess (fun a b => a == b) (overflow (linear 512)) 4096 [.newList [1, 2]]
      match c.hs with
      | [h] => do
        let r ← h.moveWithC demoPair (overflow (linear 512)) c.st (mallocator (demoSys .direct)) () c.objs
        (overflow (linear 512)).fini r.1
      | _ => M.oom) (demoWorld 576)).test (fun _ w => decide (w.out = [Msg.corruption 4160 8 0 64, Msg.leak (-4), Msg.logic 2])) = true := by decide +kernel

end KTL
