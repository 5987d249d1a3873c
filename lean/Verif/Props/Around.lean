import Verif.Alloc.Around
import Verif.Props.Doors
import Verif.Props.Memory

/- C96: an allocator can be built around allocators that are already in use. -/
namespace KTL

/-- Disjoint storage for a number of objects (address and size). -/
def Sites (w : World) (ss : List (Nat × Nat)) : Prop :=
  (∀ s ∈ ss, Storage w s.1 s.2) ∧ ss.Pairwise fun s t => s.1 + s.2 ≤ t.1 ∨ t.1 + t.2 ≤ s.1

/-- The address is in one of the objects. -/
def InSites (ss : List (Nat × Nat)) (x : Nat) : Prop := ∃ s ∈ ss, s.1 ≤ x ∧ x < s.1 + s.2

/-- What a program does with the argument objects, before and after, is covered by C01. -/
def SaneSrc (u : AllocTy) (s : Src) : Prop := Sane u s.before ∧ Sane u s.after

/-! ### Helpers -/

/-- memory of objects (proof helper) -/
def sitesV : List (Nat × Nat) → HProp
  | [] => emp
  | s :: ss => bytes s.1 s.2 ∗ sitesV ss

theorem sitesV_append : ∀ (a b : List (Nat × Nat)), sitesV (a ++ b) = (sitesV a ∗ sitesV b)
  | [], b => (emp_star _).symm
  | s :: a, b => by
    show (bytes s.1 s.2 ∗ sitesV (a ++ b)) = ((bytes s.1 s.2 ∗ sitesV a) ∗ sitesV b)
    rw [sitesV_append a b, star_assoc]

theorem sites_split {w : World} {ss : List (Nat × Nat)} (h : Sites w ss) :
    ∃ hs hf, Heap.disj hs hf ∧ w.heap = hs.add hf ∧ sitesV ss hs ∧ (∀ x, InSites ss x → hf.b x = none) ∧
      (∀ x, ¬ InSites ss x → hf.b x = w.heap.b x) ∧ hf.t = w.heap.t := by
  induction ss generalizing w with
  | nil => exact ⟨.empty, w.heap, Heap.disj_comm (Heap.disj_empty _), by simp, rfl, (fun x ⟨_, h, _⟩ => absurd h (by simp)), fun _ _ => rfl, rfl⟩
  | cons s ss ih =>
    obtain ⟨h1, h2⟩ := h
    rw [List.pairwise_cons] at h2
    obtain ⟨k, r, hd, he, hb, hr1, hr2⟩ := storage_split (h1 s (by simp))
    have hP : Sites { w with heap := r } ss := by
      refine ⟨fun c hc => ?_, h2.2⟩
      have hc' := h1 c (List.mem_cons_of_mem _ hc)
      refine ⟨hc'.1, hc'.2.1, hc'.2.2.1, fun x hx1 hx2 => ?_⟩
      show (r.b x).isSome = true
      have := h2.1 c hc
      rw [hr1, if_neg (by omega)]
      exact hc'.2.2.2 x hx1 hx2
    obtain ⟨ks, rs, hd', he', hb', q1, q2, q3⟩ := ih hP
    dsimp only at he' q2 q3
    subst he'
    have d := Heap.disj_add_right.1 hd
    refine ⟨k.add ks, rs, Heap.disj_add_left.2 ⟨d.2, hd'⟩, by rw [he, Heap.add_assoc], ⟨k, ks, d.1, rfl, hb, hb'⟩, fun x hx => ?_,
      fun x hx => ?_, by rw [q3, hr2]⟩
    · by_cases hx' : InSites ss x
      · exact q1 x hx'
      · obtain ⟨c, hc, hcx⟩ := hx
        rcases List.mem_cons.1 hc with rfl | hc
        · rw [q2 x hx', hr1, if_pos hcx]
        · exact absurd ⟨c, hc, hcx⟩ hx'
    · rw [q2 x (fun ⟨c, hc, hcx⟩ => hx ⟨c, List.mem_cons_of_mem _ hc, hcx⟩), hr1, if_neg (fun h => hx ⟨s, by simp, h⟩)]

theorem sitesV_some {ss : List (Nat × Nat)} {h : Heap} (hh : sitesV ss h) :
    (∀ x, InSites ss x → (h.b x).isSome = true) ∧ (∀ x, ¬ InSites ss x → h.b x = none) ∧ ∀ x, h.t x = none := by
  induction ss generalizing h with
  | nil =>
    have : h = Heap.empty := hh
    subst this
    exact ⟨(fun x ⟨_, h, _⟩ => absurd h (by simp)), fun _ _ => rfl, fun _ => rfl⟩
  | cons s ss ih =>
    obtain ⟨h1, h2, hd, rfl, hb, hs⟩ := hh
    obtain ⟨i1, i2, i3⟩ := ih hs
    refine ⟨fun x hx => ?_, fun x hx => ?_, fun x => ?_⟩
    · obtain ⟨c, hc, hcx⟩ := hx
      rcases List.mem_cons.1 hc with rfl | hc
      · exact heap_left_isSome (bytes_isSome hb hcx)
      · exact heap_right_isSome (i1 x ⟨c, hc, hcx⟩)
    · have e1 : h1.b x = none := by
        have := hb.2 x
        replace this : (h1.b x).isSome = true ↔ (s.1 ≤ x ∧ x < s.1 + s.2) := this
        have h0 : ¬ (s.1 ≤ x ∧ x < s.1 + s.2) := fun h => hx ⟨s, by simp, h⟩
        rw [← this] at h0
        simpa using h0
      have e2 := i2 x (fun ⟨c, hc, hcx⟩ => hx ⟨c, List.mem_cons_of_mem _ hc, hcx⟩)
      simp [e1, e2]
    · have e1 : h1.t x = none := hb.1 x
      simp [e1, i3 x]

theorem foreignV_append : ∀ (a b : List (Nat × List UInt8)), foreignV (a ++ b) = (foreignV a ∗ foreignV b)
  | [], b => (emp_star _).symm
  | s :: a, b => by
    show ((tok s.1 s.2.length ∗ bytesV s.1 s.2) ∗ foreignV (a ++ b)) = (((tok s.1 s.2.length ∗ bytesV s.1 s.2) ∗ foreignV a) ∗ foreignV b)
    rw [foreignV_append a b, ← star_assoc]

/-- where the blocks of others are not (helper) -/
theorem foreignV_none (R : List (Nat × List UInt8)) : ∀ g, foreignV R g →
    (∀ x, (∀ f ∈ R, x ≠ f.1) → g.t x = none) ∧ (∀ x, (∀ f ∈ R, ¬ (f.1 ≤ x ∧ x < f.1 + f.2.length)) → g.b x = none) := by
  induction R with
  | nil =>
    intro g hg
    have : g = Heap.empty := hg
    subst this; simp
  | cons f R ih =>
    rintro g ⟨g1, g2, hdg, rfl, ⟨k1, k2, hdk, rfl, ht, hb⟩, hR⟩
    obtain ⟨i1, i2⟩ := ih g2 hR
    constructor
    · intro x hx
      have e1 : k1.t x = none := by rw [ht.2 x]; simp [hx f (by simp)]
      have e2 : k2.t x = none := hb.1 x
      have e3 := i1 x (fun f hf => hx f (List.mem_cons_of_mem _ hf))
      simp [e1, e2, e3]
    · intro x hx
      have e1 : k1.b x = none := ht.1 x
      have e2 : k2.b x = none := by
        have := (bytesV_length hb).2 x
        replace this : (k2.b x).isSome = true ↔ (f.1 ≤ x ∧ x < f.1 + f.2.length) := this
        have h0 := hx f (by simp)
        rw [← this] at h0
        simpa using h0
      have e3 := i2 x (fun f hf => hx f (List.mem_cons_of_mem _ hf))
      simp [e1, e2, e3]

namespace Make

variable {X : AllocTy → Type} {sys : Sys}

theorem own_mono {I J : (u : AllocTy) → Nat → X u → HProp} (h : ∀ u b x g, I u b x g → J u b x g) :
    ∀ {t : AllocTy} (a : Make X t) (g : Heap), a.own I g → a.own J g
  | _, fresh _, _, hg => hg
  | _, moved _ _, _, hg => h _ _ _ _ hg
  | _, freelist a, g, hg => own_mono h a g hg
  | _, overflow a, g, hg => own_mono h a g hg
  | _, threaded a, g, hg => own_mono h a g hg
  | _, shared a, g, hg => own_mono h a g hg
  | _, fallback p f, g, hg => star_mono (own_mono h p) (own_mono h f) g hg
  | _, segragator p f, g, hg => star_mono (own_mono h p) (own_mono h f) g hg

theorem own_star (I J : (u : AllocTy) → Nat → X u → HProp) :
    ∀ {t : AllocTy} (a : Make X t), a.own (fun u b x => I u b x ∗ J u b x) = (a.own I ∗ a.own J)
  | _, fresh _ => (emp_star _).symm
  | _, moved _ _ => rfl
  | _, freelist a => own_star I J a
  | _, overflow a => own_star I J a
  | _, threaded a => own_star I J a
  | _, shared a => own_star I J a
  | _, fallback p f => by
    show (p.own _ ∗ f.own _) = ((p.own I ∗ f.own I) ∗ (p.own J ∗ f.own J))
    rw [own_star I J p, own_star I J f]; ac_rfl
  | _, segragator p f => by
    show (p.own _ ∗ f.own _) = ((p.own I ∗ f.own I) ∗ (p.own J ∗ f.own J))
    rw [own_star I J p, own_star I J f]; ac_rfl

theorem own_bytes : ∀ {t : AllocTy} (a : Make X t), a.own (fun u b _ => bytes b u.size) = sitesV a.sites
  | _, fresh _ => rfl
  | _, moved _ _ => (star_emp _).symm
  | _, freelist a => own_bytes a
  | _, overflow a => own_bytes a
  | _, threaded a => own_bytes a
  | _, shared a => own_bytes a
  | _, fallback p f => by
    show (p.own _ ∗ f.own _) = sitesV (p.sites ++ f.sites)
    rw [own_bytes p, own_bytes f, sitesV_append]
  | _, segragator p f => by
    show (p.own _ ∗ f.own _) = sitesV (p.sites ++ f.sites)
    rw [own_bytes p, own_bytes f, sitesV_append]

theorem own_collect {α : Type} (V : List α → HProp) (h0 : V [] = emp) (hV : ∀ a b, V (a ++ b) = (V a ∗ V b))
    (g : (u : AllocTy) → X u → List α) : ∀ {t : AllocTy} (a : Make X t), a.own (fun u _ x => V (g u x)) = V (a.collect g)
  | _, fresh _ => h0.symm
  | _, moved _ _ => rfl
  | _, freelist a => own_collect V h0 hV g a
  | _, overflow a => own_collect V h0 hV g a
  | _, threaded a => own_collect V h0 hV g a
  | _, shared a => own_collect V h0 hV g a
  | _, fallback p f => by
    show (p.own _ ∗ f.own _) = V (p.collect g ++ f.collect g)
    rw [own_collect V h0 hV g p, own_collect V h0 hV g f, hV]
  | _, segragator p f => by
    show (p.own _ ∗ f.own _) = V (p.collect g ++ f.collect g)
    rw [own_collect V h0 hV g p, own_collect V h0 hV g f, hV]

/-- the part of an argument object that is not its blocks (proof helper) -/
def Core (sys : Sys) (u : AllocTy) (b : Nat) (x : Used sys u) : HProp := fun h =>
  ∃ hw : u.WF, (u.sound sys hw).Inv b x.c.st (x.c.live.map blk) h

theorem own_used {t : AllocTy} (a : Make (Used sys) t) (h : Heap) (hh : a.own (UsedInv sys) h) :
    (a.own (Core sys) ∗ blocksV (a.collect fun _ x => x.c.live) ∗ foreignV (a.collect fun _ x => x.c.foreign)) h := by
  rw [← own_collect blocksV blocksV_nil blocksV_append, ← own_collect foreignV rfl foreignV_append, ← own_star, ← own_star]
  refine own_mono (fun u b x g hg => ?_) a h hh
  obtain ⟨_, hw, hg⟩ := hg
  exact star_mono_left (fun _ hh => ⟨hw, hh⟩) _ hg

theorem core_good : ∀ {t : AllocTy} (a : Make (Used sys) t) (h : Heap), a.own (Core sys) h →
    ∀ x ∈ a.collect (fun _ x => x.c.live), Good x.1 x.2.length
  | _, fresh _, _, _, x, hx => by cases hx
  | t, moved b u, h, ⟨hw, hh⟩, x, hx => ((t.sound sys hw).live_good hh (List.mem_map_of_mem (f := blk) hx)).1
  | _, freelist a, h, hh, x, hx => core_good a h hh x hx
  | _, overflow a, h, hh, x, hx => core_good a h hh x hx
  | _, threaded a, h, hh, x, hx => core_good a h hh x hx
  | _, shared a, h, hh, x, hx => core_good a h hh x hx
  | _, fallback p f, h, hh, x, hx => by
    obtain ⟨h1, h2, _, _, hp, hf⟩ := hh
    exact (List.mem_append.1 hx).elim (core_good p h1 hp x) (core_good f h2 hf x)
  | _, segragator p f, h, hh, x, hx => by
    obtain ⟨h1, h2, _, _, hp, hf⟩ := hh
    exact (List.mem_append.1 hx).elim (core_good p h1 hp x) (core_good f h2 hf x)

/-- storage for an argument object (proof helper) -/
def StartInv (u : AllocTy) (b : Nat) (s : Src) : HProp := fun h =>
  (u.WF ∧ b ≠ 0 ∧ b % 16 = 0 ∧ b + u.size < W64 ∧ SaneSrc u s) ∧ bytes b u.size h

theorem start_own : ∀ {t : AllocTy} (a : Make (fun _ => Src) t) (_ : t.WF) (_ : a.All SaneSrc)
    (_ : ∀ s ∈ a.sites, s.1 ≠ 0 ∧ s.1 % 16 = 0 ∧ s.1 + s.2 < W64) (h : Heap), a.own (fun u b _ => bytes b u.size) h → a.own StartInv h
  | _, fresh _, _, _, _, _, hh => hh
  | t, moved b s, hw, ha, hs, h, hh => by
    have := hs (b, t.size) (by simp [sites])
    exact ⟨⟨hw, this.1, this.2.1, this.2.2, ha⟩, hh⟩
  | _, freelist a, hw, ha, hs, h, hh => start_own a hw.1 ha hs h hh
  | _, overflow a, hw, ha, hs, h, hh => start_own a hw ha hs h hh
  | _, threaded a, hw, ha, hs, h, hh => start_own a hw ha hs h hh
  | _, shared a, hw, ha, hs, h, hh => start_own a hw.1 ha hs h hh
  | _, fallback p f, hw, ha, hs, h, hh => star_mono
      (start_own p hw.1 ha.1 fun s h => hs s (List.mem_append_left _ h)) (start_own f hw.2.1 ha.2 fun s h => hs s (List.mem_append_right _ h)) h hh
  | _, segragator p f, hw, ha, hs, h, hh => star_mono
      (start_own p hw.1 ha.1 fun s h => hs s (List.mem_append_left _ h)) (start_own f hw.2 ha.2 fun s h => hs s (List.mem_append_right _ h)) h hh

theorem prepare_spec {t : AllocTy} (a : Make (fun _ => Src) t) :
    Triple (a.own StartInv) (a.prepare sys) (fun a' h => a'.sites = a.sites ∧ a'.own (UsedInv sys) h) := by
  refine each_spec (fun u b s => Triple.and fun ⟨hw, h1, h2, h3, hs⟩ => ?_) a
  have hsz := AllocTy.objSize_eq sys u
  have hp := play_spec sys (u.sound sys hw) b s.before h1 h2 (by rw [hsz]; exact h3) (hs.1.fits sys hw)
  rw [hsz] at hp
  exact Triple.bind hp fun c => Triple.pure _ fun h hh => ⟨hs.2.fits sys hw, hw, hh⟩

theorem resume_spec {t : AllocTy} (a : Make (Used sys) t) :
    Triple (a.own (UsedInv sys)) a.resume (fun a' h => a'.sites = a.sites ∧ a'.own (UsedInv sys) h) := by
  refine each_spec (fun u b x => Triple.and fun hr => Triple.exists fun hw => ?_) a
  exact Triple.bind (run_spec sys (u.sound sys hw) b x.after x.c hr) fun c => Triple.pure _ fun h hh =>
    ⟨(fun n hn => absurd hn (by simp)), hw, hh⟩

theorem finish_spec {t : AllocTy} (a : Make (Used sys) t) :
    Triple (a.own fun u b x h => ∃ hw : u.WF, (u.sound sys hw).Inv b x.c.st [] h) a.finish
      (fun a' h => a'.sites = a.sites ∧ a'.own (fun u b _ => bytes b u.size) h) := by
  refine each_spec (fun u b x => Triple.exists fun hw => ?_) a
  have := (u.sound sys hw).fini_spec b x.c.st
  rw [AllocTy.objSize_eq] at this
  exact this

theorem door_run (sys : Sys) {t : AllocTy} (hw : t.WF) (b : Nat) : ∀ (ops : List DoorOp) (_ : ∀ o ∈ ops, DoorFits sys t o) (c : DoorClient sys t),
    Triple (DoorInv sys t hw b c) (c.run ops) (DoorInv sys t hw b)
  | [], _, c => Triple.pure _ fun h hh => hh
  | o :: os, ho, c => Triple.bind (DoorClient.step_spec hw b c o (ho o (by simp))) fun c' =>
      door_run sys hw b os (fun o h => ho o (List.mem_cons_of_mem _ h)) c'

theorem use_spec {t : AllocTy} (a : Make (Used sys) t) (hw : t.WF) (b : Nat) (h1 : b ≠ 0) (h2 : b % 16 = 0) (h3 : b + t.size < W64)
    (ha : a.Permitted) (ops ops' : List DoorOp) (hops : ∀ o ∈ ops, DoorFits sys t o) (hops' : ∀ o ∈ ops', DoorFits sys t o) :
    Triple (a.own (UsedInv sys) ∗ bytes b t.size) (a.use b ops ops')
      (fun r h => r.2.sites = a.sites ∧ (DoorInv sys t hw b r.1 ∗ r.2.own (UsedInv sys)) h) := by
  refine Triple.bind (build_spec a hw b h1 h2 h3 ha) fun r => Triple.and fun hs => ?_
  have hrun := (door_run sys hw b ops hops { st := r.1, live := a.live, foreign := [] }).frame (r.2.own (UsedInv sys))
  have hpre : ∀ h, (t.whole sys hw a.live).Inv b r.1 [] h → DoorInv sys t hw b { st := r.1, live := a.live, foreign := [] } h := by
    intro h hh
    refine ⟨live_out a, ?_⟩
    show ((t.whole sys hw a.live).Inv b r.1 [] ∗ emp) h
    rw [star_emp]; exact hh
  refine Triple.bind (hrun.pre fun h hh => star_mono_left hpre h hh) fun c => ?_
  · rw [star_comm]
    refine Triple.bind ((resume_spec r.2).frame _) fun a' => ?_
    rw [star_and, star_comm]
    refine Triple.and fun hs' => Triple.bind ((door_run sys hw b ops' hops' c).frame _) fun c' => Triple.pure _ fun h hh => ?_
    exact ⟨hs'.trans hs, hh⟩

end Make

/-- the state of everything after the program (proof helper) -/
def AroundInv (sys : Sys) {t : AllocTy} (hw : t.WF) (a : Make (fun _ => Src) t) (b : Nat) (w : World)
    (r : DoorClient sys t × Make (Used sys) t) (w' : World) : Prop :=
  r.2.sites = a.sites ∧ ∃ h hf, Heap.disj h hf ∧ w'.heap = h.add hf ∧ (DoorInv sys t hw b r.1 ∗ r.2.own (Make.UsedInv sys)) h ∧
    (∀ x, InSites ((b, t.size) :: a.sites) x → hf.b x = none) ∧
    (∀ x, ¬ InSites ((b, t.size) :: a.sites) x → hf.b x = w.heap.b x) ∧ hf.t = w.heap.t ∧ NoAlarm w w'

theorem around_history (sys : Sys) (t : AllocTy) (hw : t.WF) (a : Make (fun _ => Src) t) (b : Nat) (w : World)
    (hs : Sites w ((b, t.size) :: a.sites)) (ha : a.All SaneSrc) (ops ops' : List DoorOp) (hops : ∀ o ∈ ops ++ ops', DoorSane t o) :
    match a.prepare sys w with
    | .ok a1 w1 => a1.Permitted →
      match a1.use b ops ops' w1 with
      | .ok r w' => AroundInv sys hw a b w r w'
      | .oom w' => w'.failed = true
      | .ub => False
    | .oom w' => w'.failed = true
    | .ub => False := by
  obtain ⟨k, hf, hd, he, ⟨k1, k2, hdk, rfl, hb, hsv⟩, q1, q2, q3⟩ := sites_split hs
  have hsb := hs.1 (b, t.size) (by simp)
  rw [← Make.own_bytes] at hsv
  have hst := a.start_own hw ha (fun s hs' => ⟨(hs.1 s (List.mem_cons_of_mem _ hs')).1, (hs.1 s (List.mem_cons_of_mem _ hs')).2.1,
    (hs.1 s (List.mem_cons_of_mem _ hs')).2.2.1⟩) k2 hsv
  have h1 := ((Make.prepare_spec (sys := sys) a).frame (bytes b t.size)) w (k1.add k2) hf hd he (by
    rw [star_comm]; exact ⟨k1, k2, hdk, rfl, hb, hst⟩)
  cases hp : a.prepare sys w with
  | oom w' => rw [hp] at h1; exact h1
  | ub => rw [hp] at h1; exact h1
  | ok a1 w1 =>
    rw [hp] at h1
    obtain ⟨⟨g, dg, eg, hg⟩, na⟩ := h1
    rw [star_and] at hg
    obtain ⟨hs1, hg⟩ := hg
    intro hperm
    have h2 := Make.use_spec a1 hw b hsb.1 hsb.2.1 hsb.2.2.1 hperm ops ops' (fun o ho => (hops o (List.mem_append_left _ ho)).fits sys hw)
      (fun o ho => (hops o (List.mem_append_right _ ho)).fits sys hw) w1 g hf dg eg hg
    cases hu : a1.use b ops ops' w1 with
    | oom w' => rw [hu] at h2; exact h2
    | ub => rw [hu] at h2; exact h2
    | ok r w' =>
      rw [hu] at h2
      obtain ⟨⟨g', dg', eg', hs2, hg'⟩, na'⟩ := h2
      exact ⟨hs2.trans hs1, g', hf, dg', eg', hg', q1, q2, q3, na.trans na'⟩

/-! ### The property -/

/-- **C96, safety.** Allocators of any classes are used; then another one, of any composition, is constructed with them as arguments, so
that they end up inside it; then it is used (also through `get_allocator()`), and so are the objects that were moved from. There is no
undefined behaviour, and memory that is in none of the objects and not obtained from them is untouched. -/
theorem C96_around_safe (sys : Sys) (t : AllocTy) (hw : t.WF) (a : Make (fun _ => Src) t) (b : Nat) (w : World)
    (hs : Sites w ((b, t.size) :: a.sites)) (ha : a.All SaneSrc) (ops ops' : List DoorOp) (hops : ∀ o ∈ ops ++ ops', DoorSane t o) :
    match a.prepare sys w with
    | .ok a1 w1 => a1.Permitted →
      match a1.use b ops ops' w1 with
      | .ok _ w' => ∀ x v, ¬ InSites ((b, t.size) :: a.sites) x → w.heap.b x = some v → w'.heap.b x = some v
      | .oom w' => w'.failed = true
      | .ub => False
    | .oom w' => w'.failed = true
    | .ub => False := by
  have := around_history sys t hw a b w hs ha ops ops' hops
  cases hp : a.prepare sys w with
  | oom w' => rw [hp] at this; exact this
  | ub => rw [hp] at this; exact this
  | ok a1 w1 =>
    rw [hp] at this
    intro hperm
    replace this := this hperm
    cases hu : a1.use b ops ops' w1 with
    | oom w' => rw [hu] at this; exact this
    | ub => rw [hu] at this; exact this
    | ok r w' =>
      rw [hu] at this
      obtain ⟨_, h, hf, hd, he, _, _, q2, _⟩ := this
      intro x v hx hv
      have e : hf.b x = some v := by rw [q2 x hx]; exact hv
      rw [he]
      rcases hd.1 x with e' | e' <;> simp_all

theorem range_single (n : Nat) (L : List (Nat × List UInt8)) : ((List.range (n + 1)).flatMap fun k => if k = 0 then L else []) = L := by
  rw [List.range_succ_eq_map, List.flatMap_cons, List.flatMap_map]
  simp

/-- **C96, no block is lost.** The blocks the program holds of the new object in the beginning are those it held of the arguments. -/
theorem C96_around_all_blocks (sys : Sys) (t : AllocTy) (a : Make (Used sys) t) (hp : a.Permitted) :
    (t.blocks a.live).Perm (a.collect fun _ x => x.c.live) := by
  have shift : ∀ (t A : AllocTy) (D : Nat → List (Nat × List UInt8)), t.depth = A.depth + 1 → D 0 = [] →
      t.blocks D = A.blocks fun k => D (k + 1) := by
    intro t A D h h0
    rw [AllocTy.blocks_succ h, h0]; rfl
  have two : ∀ {P : AllocTy} (p : Make (Used sys) P), (∀ k, p.live (k + 1) = []) → P.blocks p.live = p.live 0 := by
    intro P p h
    have : p.live = fun k => if k = 0 then p.live 0 else [] := by
      funext k
      cases k with
      | zero => rfl
      | succ k => rw [h k, if_neg (by omega)]
    rw [this]
    exact range_single _ _
  induction a with
  | fresh t =>
    show ((List.range (t.depth + 1)).flatMap fun _ => []).Perm []
    simp
  | @moved t b u =>
    have : t.blocks (Make.moved b u : Make (Used sys) t).live = u.c.live := range_single _ _
    rw [this]
    exact .refl _
  | @freelist m M A a ih => rw [shift (.freelist m M A) A _ rfl rfl]; exact ih hp
  | @overflow A a ih => rw [shift (.overflow A) A _ rfl rfl]; exact ih hp
  | @threaded A a ih => rw [shift (.threaded A) A _ rfl rfl]; exact ih hp
  | @shared A a ih => rw [shift (.shared A) A _ rfl rfl]; exact ih hp
  | @fallback P F p f ihp ihf =>
    obtain ⟨h1, h2, hk, _⟩ := hp
    have : (AllocTy.fallback P F).blocks (Make.fallback p f).live = p.live 0 ++ f.live 0 := range_single 0 (p.live 0 ++ f.live 0)
    rw [this, ← two p fun k => (hk k).1, ← two f fun k => (hk k).2]
    exact (ihp h1).append (ihf h2)
  | @segragator T P F p f ihp ihf =>
    obtain ⟨h1, h2, hk, _⟩ := hp
    have : (AllocTy.segragator T P F).blocks (Make.segragator p f : Make (Used sys) (.segragator T P F)).live = p.live 0 ++ f.live 0 := range_single 0 (p.live 0 ++ f.live 0)
    rw [this, ← two p fun k => (hk k).1, ← two f fun k => (hk k).2]
    exact (ihp h1).append (ihf h2)

/-- **C96, blocks.** All blocks of the new object (those obtained from the arguments before, and new ones), blocks obtained later from the
objects that were moved from, and blocks of others are disjoint; they are aligned, not null and inside the address space; they contain what
the program wrote, before or after the construction; and they are not in memory that was in use before. -/
theorem C96_around_blocks (sys : Sys) (t : AllocTy) (hw : t.WF) (a : Make (fun _ => Src) t) (b : Nat) (w : World)
    (hs : Sites w ((b, t.size) :: a.sites)) (ha : a.All SaneSrc) (ops ops' : List DoorOp) (hops : ∀ o ∈ ops ++ ops', DoorSane t o)
    (a1 : Make (Used sys) t) (w1 : World) (hprep : a.prepare sys w = .ok a1 w1) (hperm : a1.Permitted)
    (c : DoorClient sys t) (a2 : Make (Used sys) t) (w' : World) (huse : a1.use b ops ops' w1 = .ok (c, a2) w') :
    (t.blocks c.live ++ a2.collect (fun _ x => x.c.live) ++ (c.foreign ++ a2.collect (fun _ x => x.c.foreign))).Pairwise
      (fun a d => ∀ x, ¬ ((a.1 ≤ x ∧ x < a.1 + a.2.length) ∧ (d.1 ≤ x ∧ x < d.1 + d.2.length))) ∧
    (∀ p ∈ t.blocks c.live ++ a2.collect (fun _ x => x.c.live), p.1 ≠ 0 ∧ p.1 % 16 = 0 ∧ p.1 + p.2.length < 2 ^ 64) ∧
    (∀ p ∈ t.blocks c.live ++ a2.collect (fun _ x => x.c.live) ++ (c.foreign ++ a2.collect (fun _ x => x.c.foreign)),
      ∀ i (hi : i < p.2.length), w'.heap.b (p.1 + i) = some p.2[i]) ∧
    (∀ p ∈ t.blocks c.live ++ a2.collect (fun _ x => x.c.live), ∀ x, p.1 ≤ x → x < p.1 + p.2.length →
      ¬ InSites ((b, t.size) :: a.sites) x → w.heap.b x = none) ∧
    ∀ k, t.depth < k → c.live k = [] := by
  have := around_history sys t hw a b w hs ha ops ops' hops
  rw [hprep] at this
  replace this := this hperm
  rw [huse] at this
  obtain ⟨_, h, hf, hd, he, ⟨h1, h2, hd1, rfl, ⟨hout, h3, h4, hd3, rfl, hI, hF⟩, hU⟩, q1, q2, _⟩ := this
  obtain ⟨u1, u2, du, rfl, hC, u3, u4, du', rfl, hB', hF'⟩ := a2.own_used h2 hU
  have hgood : ∀ p ∈ t.blocks c.live ++ a2.collect (fun _ x => x.c.live), Good p.1 p.2.length := by
    intro p hp
    rcases List.mem_append.1 hp with hp | hp
    · obtain ⟨k, hk, hp⟩ := AllocTy.mem_blocks.1 hp
      obtain ⟨u, hu⟩ := AllocTy.door_of_le k t hk
      obtain ⟨hu', b', s', L', z1, z2, _, _, hi, _⟩ := AllocTy.inner sys (fun _ _ => ()) k t hw c.live u hu b c.st [] _ hI
      exact (hu'.live_good hi (List.mem_append_right _ (List.mem_map_of_mem (f := blk) hp))).1
    · exact a2.core_good u1 hC p hp
  -- all blocks in one list
  have hall : (blocksV (t.blocks c.live ++ a2.collect (fun _ x => x.c.live) ++ (c.foreign ++ a2.collect (fun _ x => x.c.foreign))) ∗
      fun _ => True) ((h3.add h4).add (u1.add (u3.add u4))) := by
    have hIb : (blocksV (t.blocks c.live) ∗ fun _ => True) h3 := by
      obtain ⟨z1, z2, dz, rfl, hz⟩ := AllocTy.gather sys t hw c.live b c.st [] h3 hI
      exact ⟨z1, z2, dz, rfl, hz, trivial⟩
    have fb : ∀ (R : List (Nat × List UInt8)) g, foreignV R g → (blocksV R ∗ fun _ => True) g := by
      intro R g hg
      obtain ⟨z1, z2, dz, rfl, hz⟩ := foreignV_blocks hg
      exact ⟨z1, z2, dz, rfl, hz, trivial⟩
    have key : (((blocksV (t.blocks c.live) ∗ fun _ => True) ∗ (blocksV c.foreign ∗ fun _ => True)) ∗ ((fun _ => True) ∗
        (blocksV (a2.collect fun _ x => x.c.live) ∗ (blocksV (a2.collect fun _ x => x.c.foreign) ∗ fun _ => True))))
        ((h3.add h4).add (u1.add (u3.add u4))) :=
      ⟨_, _, hd1, rfl, ⟨_, _, hd3, rfl, hIb, fb _ _ hF⟩, _, _, du, rfl, trivial, _, _, du', rfl, hB', fb _ _ hF'⟩
    have e : (((blocksV (t.blocks c.live) ∗ fun _ => True) ∗ (blocksV c.foreign ∗ fun _ => True)) ∗ ((fun _ => True) ∗
        (blocksV (a2.collect fun _ x => x.c.live) ∗ (blocksV (a2.collect fun _ x => x.c.foreign) ∗ fun _ => True)))) =
        (blocksV (t.blocks c.live ++ a2.collect (fun _ x => x.c.live) ++ (c.foreign ++ a2.collect (fun _ x => x.c.foreign))) ∗
          ((fun _ => True) ∗ (fun _ => True) ∗ (fun _ => True) ∗ fun _ => True)) := by
      rw [blocksV_append, blocksV_append, blocksV_append]; ac_rfl
    rw [e] at key
    exact star_mono_right (fun _ _ => trivial) _ key
  obtain ⟨g1, g2, dg, eg, hg, _⟩ := hall
  rw [eg] at he hd
  refine ⟨blocksV_pairwise hg, fun p hp => ⟨(hgood p hp).1, (hgood p hp).2.1, (hgood p hp).2.2⟩, ?_, ?_, hout⟩
  · intro p hp i hi
    have e := blocksV_mem hg (show (p.1, p.2) ∈ _ from hp) i hi
    rw [he, Heap.add_b, Heap.add_b, e]; rfl
  · intro p hp x hx1 hx2 hx3
    have hsome := blocksV_isSome hg ⟨blk p, List.mem_map_of_mem (List.mem_append_left _ hp), hx1, hx2⟩
    rw [← q2 x hx3]
    have : ((g1.add g2).b x).isSome = true := heap_left_isSome hsome
    rcases hd.1 x with e' | e'
    · rw [e'] at this; simp at this
    · exact e'

/-- **C96, no alarm.** No `overflow` reports damage in such a program, also not one that was put around an allocator in use. -/
theorem C96_around_no_alarm (sys : Sys) (t : AllocTy) (hw : t.WF) (a : Make (fun _ => Src) t) (b : Nat) (w : World)
    (hs : Sites w ((b, t.size) :: a.sites)) (ha : a.All SaneSrc) (ops ops' : List DoorOp) (hops : ∀ o ∈ ops ++ ops', DoorSane t o)
    (a1 : Make (Used sys) t) (w1 : World) (hprep : a.prepare sys w = .ok a1 w1) (hperm : a1.Permitted)
    (r : DoorClient sys t × Make (Used sys) t) (w' : World) (huse : a1.use b ops ops' w1 = .ok r w')
    (p n x y : Nat) (hm : Msg.corruption p n x y ∈ w'.out) : Msg.corruption p n x y ∈ w.out := by
  have := around_history sys t hw a b w hs ha ops ops' hops
  rw [hprep] at this
  replace this := this hperm
  rw [huse] at this
  obtain ⟨_, _, _, _, _, _, _, _, _, hn⟩ := this
  exact hn p n x y hm

/-- **C96, `owns`.** If the class of the new object has `owns`, it says yes for all blocks the program holds of it, also for those obtained
from the arguments before it existed; and no for blocks obtained later from the objects that were moved from, and for memory of others. -/
theorem C96_around_owns (sys : Sys) (t : AllocTy) (hw : t.WF) (a : Make (fun _ => Src) t) (b : Nat) (w : World)
    (hs : Sites w ((b, t.size) :: a.sites)) (ha : a.All SaneSrc) (ops ops' : List DoorOp) (hops : ∀ o ∈ ops ++ ops', DoorSane t o)
    (a1 : Make (Used sys) t) (w1 : World) (hprep : a.prepare sys w = .ok a1 w1) (hperm : a1.Permitted)
    (c : DoorClient sys t) (a2 : Make (Used sys) t) (w' : World) (huse : a1.use b ops ops' w1 = .ok (c, a2) w')
    (o : (t.denote sys).St → Nat → Bool) (ho : (t.denote sys).owns = some o) (x : Nat) :
    ((∃ p ∈ t.blocks c.live, p.1 ≤ x ∧ x < p.1 + p.2.length) → o c.st x = true) ∧
    (x ≠ 0 → (∃ p ∈ a2.collect (fun _ x => x.c.live) ++ (c.foreign ++ a2.collect (fun _ x => x.c.foreign)),
      p.1 ≤ x ∧ x < p.1 + p.2.length) → o c.st x = false) ∧
    (x ≠ 0 → ¬ InSites ((b, t.size) :: a.sites) x → (w.heap.b x).isSome = true → o c.st x = false) := by
  have := around_history sys t hw a b w hs ha ops ops' hops
  rw [hprep] at this
  replace this := this hperm
  rw [huse] at this
  obtain ⟨_, h, hf, hd, he, ⟨h1, h2, hd1, rfl, ⟨hout, h3, h4, hd3, rfl, hI, hF⟩, hU⟩, q1, q2, _⟩ := this
  obtain ⟨u1, u2, du, rfl, hC, u3, u4, du', rfl, hB', hF'⟩ := a2.own_used h2 hU
  have key : x ≠ 0 → o c.st x = true → (h3.b x).isSome = true := by
    intro hx hox
    rcases (t.whole sys hw c.live).owns_sound o ho hI hx hox with e | ⟨_, e, _⟩
    · exact e
    · cases e
  refine ⟨?_, ?_, ?_⟩
  · rintro ⟨p, hp, hxp⟩
    obtain ⟨j, hj, hp⟩ := AllocTy.mem_blocks.1 hp
    obtain ⟨v, hv⟩ := AllocTy.door_of_le j t hj
    obtain ⟨hv', b', s', L', z1, z2, _, _, hi, hask', _⟩ :=
      AllocTy.inner sys (fun u s => (u.denote sys).owns.map fun o => o s x) j t hw c.live v hv b c.st [] h3 hI
    rw [AllocTy.ask_owns sys x j t v hv c.st, ho] at hask'
    obtain ⟨o', ho', e⟩ := Option.map_eq_some_iff.1 (Option.some.inj hask').symm
    have e : o' s' x = o c.st x := e
    rw [← e]
    exact hv'.owns_complete o' ho' hi ⟨blk p, List.mem_append_right _ (List.mem_map_of_mem hp), hxp⟩
  · rintro hx ⟨p, hp, hxp⟩
    cases hc : o c.st x with
    | false => rfl
    | true =>
      have hk := key hx hc
      exfalso
      rcases List.mem_append.1 hp with hp | hp
      · have hs : (u3.b x).isSome = true := blocksV_isSome hB' ⟨blk p, List.mem_map_of_mem hp, hxp⟩
        exact disj_isSome hd1 (heap_left_isSome hk) (heap_right_isSome (heap_left_isSome hs))
      · rcases List.mem_append.1 hp with hp | hp
        · obtain ⟨g1, g2, hdg, rfl, hg⟩ := foreignV_blocks hF
          have hs : (g1.b x).isSome = true := blocksV_isSome hg ⟨blk p, List.mem_map_of_mem hp, hxp⟩
          exact disj_isSome hd3 hk (heap_left_isSome hs)
        · obtain ⟨g1, g2, hdg, rfl, hg⟩ := foreignV_blocks hF'
          have hs : (g1.b x).isSome = true := blocksV_isSome hg ⟨blk p, List.mem_map_of_mem hp, hxp⟩
          exact disj_isSome hd1 (heap_left_isSome hk) (heap_right_isSome (heap_right_isSome (heap_left_isSome hs)))
  · intro hx hxr hwx
    rw [← q2 x hxr] at hwx
    cases hc : o c.st x with
    | false => rfl
    | true => exact (disj_isSome hd (heap_left_isSome (heap_left_isSome (key hx hc))) hwx).elim

/-- **C96, end.** When all blocks have been given back, the destructors of the new object and of the objects that were moved from give all
memory back. -/
theorem C96_around_returns (sys : Sys) (t : AllocTy) (hw : t.WF) (a : Make (fun _ => Src) t) (b : Nat) (w : World)
    (hs : Sites w ((b, t.size) :: a.sites)) (ha : a.All SaneSrc) (ops ops' : List DoorOp) (hops : ∀ o ∈ ops ++ ops', DoorSane t o)
    (a1 : Make (Used sys) t) (w1 : World) (hprep : a.prepare sys w = .ok a1 w1) (hperm : a1.Permitted)
    (c : DoorClient sys t) (a2 : Make (Used sys) t) (w' : World) (huse : a1.use b ops ops' w1 = .ok (c, a2) w')
    (hempty : t.blocks c.live = []) (hempty' : a2.collect (fun _ x => x.c.live) = []) :
    match (do (t.denote sys).fini c.st; a2.finish : M _) w' with
    | .ok _ w'' =>
      (∀ x, InSites ((b, t.size) :: a.sites) x → (w''.heap.b x).isSome = true) ∧
      (∀ x, (∀ f ∈ c.foreign ++ a2.collect (fun _ x => x.c.foreign), x ≠ f.1) → w''.heap.t x = w.heap.t x) ∧
      (∀ x, ¬ InSites ((b, t.size) :: a.sites) x → (∀ f ∈ c.foreign ++ a2.collect (fun _ x => x.c.foreign),
        ¬ (f.1 ≤ x ∧ x < f.1 + f.2.length)) → w''.heap.b x = w.heap.b x)
    | .oom w'' => w''.failed = true
    | .ub => False := by
  have := around_history sys t hw a b w hs ha ops ops' hops
  rw [hprep] at this
  replace this := this hperm
  rw [huse] at this
  obtain ⟨hsites, h, hf, hd, he, ⟨h1, h2, hd1, rfl, ⟨hout, hI⟩, hU⟩, q1, q2, q3, _⟩ := this
  have h0 : ∀ k, c.live k = [] := by
    intro k
    rcases Nat.lt_or_ge t.depth k with hk | hk
    · exact hout k hk
    · rw [List.eq_nil_iff_forall_not_mem] at hempty ⊢
      exact fun x hx => hempty x (AllocTy.mem_blocks.2 ⟨k, hk, hx⟩)
  have hall : ∀ {t : AllocTy} (a : Make (Used sys) t) (g : Heap), a.collect (fun _ x => x.c.live) = [] → a.own (Make.Core sys) g →
      (a.own fun u b x h => ∃ hw : u.WF, (u.sound sys hw).Inv b x.c.st [] h) g := by
    intro t a
    induction a with
    | fresh => exact fun g _ hg => hg
    | @moved t b u =>
      rintro g he ⟨hw, hg⟩
      have he : u.c.live = [] := he
      rw [he] at hg
      exact ⟨hw, hg⟩
    | freelist a ih => exact fun g he hg => ih g he hg
    | overflow a ih => exact fun g he hg => ih g he hg
    | threaded a ih => exact fun g he hg => ih g he hg
    | shared a ih => exact fun g he hg => ih g he hg
    | fallback p f ihp ihf =>
      exact fun g he hg => star_mono (ihp · (List.append_eq_nil_iff.1 he).1) (ihf · (List.append_eq_nil_iff.1 he).2) g hg
    | segragator p f ihp ihf =>
      exact fun g he hg => star_mono (ihp · (List.append_eq_nil_iff.1 he).1) (ihf · (List.append_eq_nil_iff.1 he).2) g hg
  have hsz := AllocTy.objSize_eq sys t
  replace hI : (((t.heldView sys hw fun k => c.live (k + 1)).Inv b c.st ([] ++ (c.live 0).map blk) ∗ blocksV (c.live 0)) ∗ foreignV c.foreign) h1 := hI
  rw [h0 0, AllocTy.bare sys t hw _ (fun k _ => h0 _), blocksV_nil, star_emp] at hI
  have hpre : ((t.sound sys hw).Inv b c.st [] ∗ (a2.own (fun u b x h => ∃ hw : u.WF, (u.sound sys hw).Inv b x.c.st [] h) ∗
      (foreignV c.foreign ∗ foreignV (a2.collect fun _ x => x.c.foreign)))) (h1.add h2) := by
    have hU' := a2.own_used h2 hU
    rw [hempty', blocksV_nil, emp_star] at hU'
    have hU'' := star_mono_left (fun g hg => hall a2 g hempty' hg) h2 hU'
    have key : (((t.sound sys hw).Inv b c.st [] ∗ foreignV c.foreign) ∗ (a2.own (fun u b x h => ∃ hw : u.WF, (u.sound sys hw).Inv b x.c.st [] h) ∗
      foreignV (a2.collect fun _ x => x.c.foreign))) (h1.add h2) := ⟨h1, h2, hd1, rfl, hI, hU''⟩
    have e : (((t.sound sys hw).Inv b c.st [] ∗ foreignV c.foreign) ∗ (a2.own (fun u b x h => ∃ hw : u.WF, (u.sound sys hw).Inv b x.c.st [] h) ∗
      foreignV (a2.collect fun _ x => x.c.foreign))) = ((t.sound sys hw).Inv b c.st [] ∗ (a2.own (fun u b x h => ∃ hw : u.WF, (u.sound sys hw).Inv b x.c.st [] h) ∗
      (foreignV c.foreign ∗ foreignV (a2.collect fun _ x => x.c.foreign)))) := by ac_rfl
    rw [e] at key
    exact key
  have hfin : Triple ((t.sound sys hw).Inv b c.st [] ∗ (a2.own (fun u b x h => ∃ hw : u.WF, (u.sound sys hw).Inv b x.c.st [] h) ∗
      (foreignV c.foreign ∗ foreignV (a2.collect fun _ x => x.c.foreign)))) (do (t.denote sys).fini c.st; a2.finish)
      (fun _ h => (sitesV ((b, t.size) :: a.sites) ∗ foreignV (c.foreign ++ a2.collect fun _ x => x.c.foreign)) h) := by
    refine Triple.bind (((t.sound sys hw).fini_spec b c.st).frame _) fun _ => ?_
    rw [star_left_comm]
    refine ((a2.finish_spec).frame _).post fun a' h hh => ?_
    rw [star_and] at hh
    obtain ⟨hs', hh⟩ := hh
    rw [Make.own_bytes, hs', hsites, hsz] at hh
    rw [foreignV_append]
    show ((bytes b t.size ∗ sitesV a.sites) ∗ _) h
    rw [star_comm (bytes _ _), star_assoc]
    exact hh
  have := hfin w' (h1.add h2) hf hd he hpre
  cases hr : (do (t.denote sys).fini c.st; a2.finish : M _) w' with
  | oom w'' => rw [hr] at this; exact this
  | ub => rw [hr] at this; exact this
  | ok a3 w'' =>
    rw [hr] at this
    obtain ⟨⟨h', hd', he', ⟨s1, s2, hds, rfl, hS, hF⟩⟩, _⟩ := this
    obtain ⟨p1, p2, p3⟩ := sitesV_some hS
    obtain ⟨f1, f2⟩ := foreignV_none _ _ hF
    refine ⟨fun x hx => ?_, fun x hx => ?_, fun x hx1 hx2 => ?_⟩
    · rw [he']; exact heap_left_isSome (heap_left_isSome (p1 x hx))
    · rw [he', ← q3]
      simp [p3 x, f1 x hx]
    · rw [he', ← q2 x hx1]
      simp [p2 x hx1, f2 x hx2]

/-! ### Examples -/

theorem demoSites (n : Nat) (ss : List (Nat × Nat)) (h : ∀ s ∈ ss, 4096 ≤ s.1 ∧ s.1 + s.2 ≤ 4096 + n ∧ s.1 % 16 = 0) (hn : n < 2 ^ 62)
    (hd : ss.Pairwise fun s t => s.1 + s.2 ≤ t.1 ∨ t.1 + t.2 ≤ s.1) : Sites (demoWorld n) ss := by
  refine ⟨fun s hs => ?_, hd⟩
  obtain ⟨h1, h2, h3⟩ := h s hs
  refine ⟨by omega, h3, by omega, fun x hx1 hx2 => ?_⟩
  have : 4096 ≤ x ∧ x < 4096 + n := by omega
  simp [demoWorld, this]

/-- `Permitted` as a check that can be run (for the examples) -/
def Make.allowed {sys : Sys} : {t : AllocTy} → Make (Used sys) t → Bool
  | _, .fresh _ => true
  | t, .moved _ u => t.movable && (t.moves sys).ready u.c.st && (u.c.live.isEmpty || (t.moves sys).carries)
  | _, .freelist a => a.allowed
  | _, .overflow a => a.allowed
  | _, .threaded a => a.allowed
  | _, .shared a => a.allowed
  | .fallback P F, .fallback p f => p.allowed && f.allowed && (List.range P.depth).all (fun k => (p.live (k + 1)).isEmpty) &&
      (List.range F.depth).all (fun k => (f.live (k + 1)).isEmpty) &&
      (p.live 0 ++ f.live 0).all fun x => decide (0 < x.2.length ∧ x.2.length + (AllocTy.fallback P F).margin < W64)
  | .segragator T P F, .segragator p f => p.allowed && f.allowed && (List.range P.depth).all (fun k => (p.live (k + 1)).isEmpty) &&
      (List.range F.depth).all (fun k => (f.live (k + 1)).isEmpty) &&
      (p.live 0 ++ f.live 0).all (fun x => decide (0 < x.2.length ∧ x.2.length + (AllocTy.segragator T P F).margin < W64)) &&
      (p.live 0).all (fun x => decide (x.2.length ≤ T)) && (f.live 0).all fun x => decide (T < x.2.length)

theorem Make.allowed_permitted {sys : Sys} {t : AllocTy} (a : Make (Used sys) t) : a.allowed = true → a.Permitted := by
  have deep : ∀ {P : AllocTy} (p : Make (Used sys) P), (∀ k ∈ List.range P.depth, (p.live (k + 1)).isEmpty = true) →
      ∀ k, p.live (k + 1) = [] := by
    intro P p h k
    rcases Nat.lt_or_ge k P.depth with hk | hk
    · exact List.isEmpty_iff.1 (h k (List.mem_range.2 hk))
    · exact p.live_out _ (by omega)
  induction a with
  | fresh t => exact fun _ => trivial
  | moved b u =>
    intro h
    simp only [allowed, Bool.and_eq_true, Bool.or_eq_true, List.isEmpty_iff] at h
    exact ⟨h.1.1, h.1.2, h.2⟩
  | freelist a ih => exact ih
  | overflow a ih => exact ih
  | threaded a ih => exact ih
  | shared a ih => exact ih
  | fallback p f ihp ihf =>
    intro h
    simp only [allowed, Bool.and_eq_true, List.all_eq_true, decide_eq_true_eq] at h
    obtain ⟨⟨⟨⟨h1, h2⟩, h3⟩, h4⟩, h5⟩ := h
    exact ⟨ihp h1, ihf h2, fun k => ⟨deep p h3 k, deep f h4 k⟩, h5⟩
  | segragator p f ihp ihf =>
    intro h
    simp only [allowed, Bool.and_eq_true, List.all_eq_true, decide_eq_true_eq] at h
    obtain ⟨⟨⟨⟨⟨⟨h1, h2⟩, h3⟩, h4⟩, h5⟩, h6⟩, h7⟩ := h
    exact ⟨ihp h1, ihf h2, fun k => ⟨deep p h3 k, deep f h4 k⟩, h5, h6, h7⟩

/-- an allocator for small and one for large blocks, made into one with a counter of the memory in use and a lock -/
def aroundTy : AllocTy := .threaded (.overflow (.segragator 32 (.freelist 0 32 (.cascading (.linear 256))) .mallocator))

def aroundSmall : Src where
  before := [.allocate 20, .allocate 32, .allocate 5, .write 0 1 7, .deallocate 1]
  after := [.allocate 8, .write 0 0 9, .foreign 8]

def aroundLarge : Src where
  before := [.allocate 40, .foreign 16, .write 0 39 1]
  after := []

/-- the two allocators at 8192 and 12288, the new one around them -/
def aroundMake : Make (fun _ => Src) aroundTy :=
  .threaded (.overflow (.segragator (.moved 8192 aroundSmall) (.moved 12288 aroundLarge)))

/-- One of the blocks obtained before goes back, through the `segragator` inside; blocks are obtained from the new object and from the
`segragator` inside. -/
def aroundOps : List DoorOp := [.deallocate 2 1 2, .allocate 0 10, .allocate 2 32, .allocate 2 100, .write 0 0 3 4]

def aroundOps' : List DoorOp := [.write 2 0 2 5, .allocate 1 64]

theorem aroundOps_sane : ∀ o ∈ aroundOps ++ aroundOps', DoorSane aroundTy o := by
  intro o ho
  simp only [aroundOps, aroundOps', List.cons_append, List.nil_append, List.mem_cons, List.not_mem_nil, or_false] at ho
  rcases ho with rfl | rfl | rfl | rfl | rfl | rfl | rfl
  all_goals first
    | exact trivial
    | exact fun i h1 h2 => by omega
    | exact ⟨_, rfl, by decide, by decide⟩

theorem aroundMake_sane : aroundMake.All SaneSrc := by
  have req : ∀ (u : AllocTy) (ops : List Op), u.margin < 2 ^ 32 → (∀ n, Op.allocate n ∈ ops → 0 < n ∧ n < 2 ^ 32) → Sane u ops := by
    intro u ops h1 h2 n hn
    have := h2 n hn
    refine ⟨by omega, by omega, ?_⟩
    omega
  refine ⟨⟨req _ _ (by decide) ?_, req _ _ (by decide) ?_⟩, req _ _ (by decide) ?_, req _ _ (by decide) ?_⟩
  all_goals
    intro n hn
    simp [aroundSmall, aroundLarge] at hn
    try omega

example : aroundTy.WF ∧ Sites (demoWorld 16384) ((4096, aroundTy.size) :: aroundMake.sites) ∧ aroundMake.All SaneSrc ∧
    (∀ o ∈ aroundOps ++ aroundOps', DoorSane aroundTy o) ∧
    (aroundMake.prepare (demoSys .direct) (demoWorld 16384)).test (fun a1 w1 =>
      a1.allowed && decide ((aroundTy.blocks a1.live).map blk = [(1048640, 5), (1048576, 20), (1114112, 40)]) &&
      (a1.use 4096 aroundOps aroundOps' w1).test fun r _ =>
        decide ((List.range 3).map (fun k => (r.1.live k).map blk) =
          [[(1245248, 10)], [(1507392, 64)], [(1310720, 100), (1048576, 32), (1048640, 5), (1114112, 40)]]) &&
        decide ((r.2.collect fun _ x => x.c.live.map blk) = [(1376256, 8)]) &&
        decide ((r.2.collect fun _ x => x.c.foreign.map blk) = [(1441792, 8), (1179648, 16)])) = true := by
  refine ⟨by decide, demoSites _ _ (by decide) (by decide) (by decide), aroundMake_sane, aroundOps_sane, by decide +kernel⟩

/-- the blocks are given back: those from before, those of the new object, and one of the object that was moved from -/
def aroundSmall' : Src := { aroundSmall with after := aroundSmall.after ++ [.deallocate 0] }

def aroundMake' : Make (fun _ => Src) aroundTy :=
  .threaded (.overflow (.segragator (.moved 8192 aroundSmall') (.moved 12288 aroundLarge)))

def aroundEnd : List DoorOp :=
  aroundOps' ++ [.deallocate 0 0 0, .deallocate 1 0 1, .deallocate 2 3 2, .deallocate 2 1 2, .deallocate 2 0 2, .deallocate 2 0 2]

example : (∀ o ∈ aroundOps ++ aroundEnd, DoorSane aroundTy o) ∧
    (aroundMake'.prepare (demoSys .direct) (demoWorld 16384)).test (fun a1 w1 =>
      a1.allowed && (a1.use 4096 aroundOps aroundEnd w1).test fun r _ =>
        decide (aroundTy.blocks r.1.live = []) && decide ((r.2.collect fun _ x => x.c.live) = []) &&
        decide ((r.2.collect fun _ x => x.c.foreign.map blk) = [(1441792, 8), (1179648, 16)])) = true := by
  refine ⟨fun o ho => ?_, by decide +kernel⟩
  by_cases h : o ∈ aroundOps ++ aroundOps'
  · exact aroundOps_sane o h
  · simp only [aroundEnd, ← List.append_assoc] at ho
    rcases List.mem_append.1 ho with ho | ho
    · exact absurd ho h
    · simp only [List.mem_cons, List.not_mem_nil, or_false] at ho
      rcases ho with rfl | rfl | rfl | rfl | rfl | rfl <;> exact fun i h1 h2 => by omega

/-- `owns`: a free list around a growing allocator that is in use -/
example : (AllocTy.freelist 0 64 (.cascading (.linear 256))).WF ∧ (AllocTy.freelist 0 64 (.cascading (.linear 256))).hasOwns = true ∧
    ((Make.freelist (.moved 8192 aroundSmall) : Make (fun _ => Src) (.freelist 0 64 (.cascading (.linear 256)))).prepare (demoSys .direct)
      (demoWorld 16384)).test (fun a1 w1 =>
      a1.allowed && (a1.use 4096 [.allocate 0 8] [] w1).test fun r _ =>
        decide ((List.range 2).map (fun k => (r.1.live k).map blk) = [[(1048656, 8)], [(1048640, 5), (1048576, 20)]]) &&
        decide ((r.2.collect fun _ x => x.c.live.map blk) = [(1114112, 8)]) &&
        decide ((((AllocTy.freelist 0 64 (.cascading (.linear 256))).denote (demoSys .direct)).owns.map fun o =>
          [o r.1.st 1048576, o r.1.st 1048656, o r.1.st 1114112]) = some [true, true, false])) = true :=
  ⟨by decide, rfl, by decide +kernel⟩

/-- Why blocks in the parts of a `segragator` have to be of the right sizes: a block of 40 bytes of the allocator that becomes the part for
at most 32 bytes is given back to the other part. -/
theorem C96_segragator_wrong_part :
    ((Make.segragator (.moved 8192 ⟨[.allocate 16, .allocate 40], []⟩) (.fresh .mallocator) :
      Make (fun _ => Src) (.segragator 32 (.cascading (.linear 256)) .mallocator)).prepare (demoSys .direct)
      (demoWorld 16384)).test (fun a1 w1 => (a1.use 4096 [.deallocate 0 0 0] [] w1).isUB) = true := by decide +kernel

/-- Why an arena in use has to be empty when it becomes a part of another allocator: the copy starts over, and a block of the old one that is
given to it makes its count wrong, here so that it starts over while another block is in use: the next block is the same memory. -/
theorem C96_arena_in_use :
    ((Make.overflow (.moved 8192 ⟨[.allocate 16], []⟩) : Make (fun _ => Src) (.overflow (.linear 256))).prepare (demoSys .direct)
      (demoWorld 16384)).test (fun a1 w1 => !a1.allowed &&
        (a1.use 4096 [.allocate 1 16, .deallocate 1 1 1, .allocate 1 16] [] w1).test fun r _ => decide ((r.1.live 1).map blk = [(4096, 16), (4096, 16)])) = true := by
  decide +kernel

end KTL
