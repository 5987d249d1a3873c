import Verif.Alloc.Doors
import Verif.Alloc.Move

/- Constructors with arguments: an allocator built around allocators that are already in use. -/
namespace KTL

/-- How an object of a class is constructed. `X u` is what is known about an object of class `u` whose `std::move` is an argument; the
number is its address.

* `fresh`: no arguments.
* `moved`: the argument is an object of the same class (the move constructor).
* `freelist`, `overflow`, `threaded`, `shared`: the arguments are passed on to the allocator inside,
  `allocators/freelist.h:50-55`, `allocators/overflow.h:46-53`, `allocators/threaded.h:34-40`, `allocators/shared.h:51-57,70-76`.
* `fallback`, `segragator`: arguments for the first part and for the second; if there are none for a part, it is default constructed:
  `allocators/fallback.h:38-77`, `allocators/segragator.h:35-74`. The variants with tuples (`:59-77`, `:56-74`) construct the same
  parts from the elements of the tuples. -/
inductive Make (X : AllocTy → Type) : AllocTy → Type where
  | fresh (t : AllocTy) : Make X t
  | moved {t : AllocTy} (addr : Nat) (x : X t) : Make X t
  | freelist {m M : Nat} {A : AllocTy} (a : Make X A) : Make X (.freelist m M A)
  | overflow {A : AllocTy} (a : Make X A) : Make X (.overflow A)
  | threaded {A : AllocTy} (a : Make X A) : Make X (.threaded A)
  | shared {A : AllocTy} (a : Make X A) : Make X (.shared A)
  | fallback {P F : AllocTy} (p : Make X P) (f : Make X F) : Make X (.fallback P F)
  | segragator {T : Nat} {P F : AllocTy} (p : Make X P) (f : Make X F) : Make X (.segragator T P F)

/-- What a program does with an object before it is moved from, and what it does with it afterwards. Specification, not code. -/
structure Src where
  before : List Op
  after : List Op

/-- An object in use, and what the program still does with it. Specification, not code. -/
structure Used (sys : Sys) (t : AllocTy) where
  after : List Op
  c : Client (t.denote sys)

namespace Make

variable {X Y : AllocTy → Type}

/-- Do something with each of the argument objects, from left to right. Specification, not code. -/
def each (f : (u : AllocTy) → Nat → X u → M (Y u)) : {t : AllocTy} → Make X t → M (Make Y t)
  | _, fresh t => pure (fresh t)
  | t, moved b x => do
    let y ← f t b x
    pure (moved b y)
  | _, freelist a => do
    let a ← a.each f
    pure (freelist a)
  | _, overflow a => do
    let a ← a.each f
    pure (overflow a)
  | _, threaded a => do
    let a ← a.each f
    pure (threaded a)
  | _, shared a => do
    let a ← a.each f
    pure (shared a)
  | _, fallback p f' => do
    let p ← p.each f
    let f' ← f'.each f
    pure (fallback p f')
  | _, segragator p f' => do
    let p ← p.each f
    let f' ← f'.each f
    pure (segragator p f')

/-- Addresses and sizes of the argument objects. Specification, not code. -/
def sites : {t : AllocTy} → Make X t → List (Nat × Nat)
  | _, fresh _ => []
  | t, moved b _ => [(b, t.size)]
  | _, freelist a => a.sites
  | _, overflow a => a.sites
  | _, threaded a => a.sites
  | _, shared a => a.sites
  | _, fallback p f => p.sites ++ f.sites
  | _, segragator p f => p.sites ++ f.sites

/-- Something holds of all argument objects. Specification, not code. -/
def All (p : (u : AllocTy) → X u → Prop) : {t : AllocTy} → Make X t → Prop
  | _, fresh _ => True
  | t, moved _ x => p t x
  | _, freelist a => a.All p
  | _, overflow a => a.All p
  | _, threaded a => a.All p
  | _, shared a => a.All p
  | _, fallback q f => q.All p ∧ f.All p
  | _, segragator q f => q.All p ∧ f.All p

/-- What belongs to each of the argument objects, in one list. Specification, not code. -/
def collect {α : Type} (g : (u : AllocTy) → X u → List α) : {t : AllocTy} → Make X t → List α
  | _, fresh _ => []
  | t, moved _ x => g t x
  | _, freelist a => a.collect g
  | _, overflow a => a.collect g
  | _, threaded a => a.collect g
  | _, shared a => a.collect g
  | _, fallback p f => p.collect g ++ f.collect g
  | _, segragator p f => p.collect g ++ f.collect g

variable {sys : Sys}

/-- The constructor of an object at address `b`: the fields of the object, and the argument objects afterwards.

* The parts of an object are laid out as in the default constructors (`AllocTy.denote`).
* `freelist`: `m_Free` is null, `allocators/freelist.h:54-55`.
* `overflow`: the counters are zero, `allocators/overflow.h:50-53`.
* `shared`: `aligned_new<block>` passes the arguments on, `allocators/shared.h:76`, `utility/aligned_malloc.h:89-96`.
* `fallback`, `segragator`: `m_Primary` is declared before `m_Fallback`, `allocators/fallback.h:207-208`, `allocators/segragator.h:201-202`. -/
def build : {t : AllocTy} → Make (Used sys) t → Nat → M ((t.denote sys).St × Make (Used sys) t)
  | _, fresh t, b => do
    let s ← (t.denote sys).init b
    pure (s, fresh t)
  | t, moved b' u, b => do
    let r ← (t.moves sys).ctor b u.c.st
    pure (r.1, moved b' { u with c := { u.c with st := r.2, live := [] } })
  | .freelist m M A, freelist a, b => do
    let r ← a.build b
    pure ((⟨r.1, 0⟩ : Freelist.St (A.denote sys).St), (freelist r.2 : Make (Used sys) (.freelist m M A)))
  | .overflow A, overflow a, b => do
    let r ← a.build b
    pure ((⟨r.1, 0, 0⟩ : Overflow.St (A.denote sys).St), (overflow r.2 : Make (Used sys) (.overflow A)))
  | .threaded A, threaded a, b => do
    let r ← a.build b
    pure (r.1, threaded r.2)
  | .shared A, shared a, _ => do
    let r ← alignedNew sys (Cascading.nodeSize (A.denote sys)) a.build
    pure (((r.1, r.2.1) : Nat × (A.denote sys).St), shared r.2.2)
  | .fallback P F, fallback p f, b => do
    let r ← p.build b
    let q ← f.build (b + (P.denote sys).objSize)
    pure (((r.1, q.1) : (P.denote sys).St × (F.denote sys).St), fallback r.2 q.2)
  | .segragator T P F, segragator p f, b => do
    let r ← p.build b
    let q ← f.build (b + (P.denote sys).objSize)
    pure (((r.1, q.1) : (P.denote sys).St × (F.denote sys).St), (segragator r.2 q.2 : Make (Used sys) (.segragator T P F)))

/-- The blocks obtained from the argument objects, by the number of `get_allocator()` calls that lead to the allocator they belong to once
the new object exists. Specification, not code. -/
def live : {t : AllocTy} → Make (Used sys) t → Nat → List (Nat × List UInt8)
  | _, fresh _ => fun _ => []
  | _, moved _ u => fun k => if k = 0 then u.c.live else []
  | _, freelist a => fun | 0 => [] | k + 1 => a.live k
  | _, overflow a => fun | 0 => [] | k + 1 => a.live k
  | _, threaded a => fun | 0 => [] | k + 1 => a.live k
  | _, shared a => fun | 0 => [] | k + 1 => a.live k
  | _, fallback p f => fun k => if k = 0 then p.live 0 ++ f.live 0 else []
  | _, segragator p f => fun k => if k = 0 then p.live 0 ++ f.live 0 else []

/-- When the arguments may be passed. The argument objects can be moved from in the state they are in (as for a move constructor on its own);
blocks a program holds of the parts of a `fallback` or `segragator` are of sizes that allocator could be asked for (and a `segragator`
would look for them in the part they are in), and are not blocks of allocators further inside, which the new object gives no access to.
Specification, not code. -/
def Permitted : {t : AllocTy} → Make (Used sys) t → Prop
  | _, fresh _ => True
  | t, moved _ u => t.movable = true ∧ (t.moves sys).ready u.c.st = true ∧ (u.c.live = [] ∨ (t.moves sys).carries = true)
  | _, freelist a => a.Permitted
  | _, overflow a => a.Permitted
  | _, threaded a => a.Permitted
  | _, shared a => a.Permitted
  | .fallback P F, fallback p f => p.Permitted ∧ f.Permitted ∧ (∀ k, p.live (k + 1) = [] ∧ f.live (k + 1) = []) ∧
      ∀ x ∈ p.live 0 ++ f.live 0, 0 < x.2.length ∧ x.2.length + (AllocTy.fallback P F).margin < W64
  | .segragator T P F, segragator p f => p.Permitted ∧ f.Permitted ∧ (∀ k, p.live (k + 1) = [] ∧ f.live (k + 1) = []) ∧
      (∀ x ∈ p.live 0 ++ f.live 0, 0 < x.2.length ∧ x.2.length + (AllocTy.segragator T P F).margin < W64) ∧
      (∀ x ∈ p.live 0, x.2.length ≤ T) ∧ ∀ x ∈ f.live 0, T < x.2.length

/-- The argument objects are constructed and used. Specification, not code. -/
def prepare (sys : Sys) {t : AllocTy} (a : Make (fun _ => Src) t) : M (Make (Used sys) t) :=
  a.each fun u b s => do
    let c ← play sys (u.denote sys) b s.before
    pure ⟨s.after, c⟩

/-- Go on using the argument objects. Specification, not code. -/
def resume {t : AllocTy} (a : Make (Used sys) t) : M (Make (Used sys) t) :=
  a.each fun _ _ u => do
    let c ← u.c.run sys u.after
    pure ⟨[], c⟩

/-- The new object is constructed at `b` and used, then the argument objects are used again, then the new one. Specification, not code. -/
def use {t : AllocTy} (a : Make (Used sys) t) (b : Nat) (ops ops' : List DoorOp) : M (DoorClient sys t × Make (Used sys) t) := do
  let r ← a.build b
  let c ← DoorClient.run { st := r.1, live := a.live, foreign := [] } ops
  let a ← r.2.resume
  let c ← c.run ops'
  pure (c, a)

/-- Destructors of the argument objects. Specification, not code. -/
def finish {t : AllocTy} (a : Make (Used sys) t) : M (Make (fun _ => Unit) t) :=
  a.each fun u _ x => (u.denote sys).fini x.c.st

/-! ### Proofs -/

/-- Proof helper, not code. -/
def own (I : (u : AllocTy) → Nat → X u → HProp) : {t : AllocTy} → Make X t → HProp
  | _, fresh _ => emp
  | t, moved b x => I t b x
  | _, freelist a => a.own I
  | _, overflow a => a.own I
  | _, threaded a => a.own I
  | _, shared a => a.own I
  | _, fallback p f => p.own I ∗ f.own I
  | _, segragator p f => p.own I ∗ f.own I

theorem each_spec {I : (u : AllocTy) → Nat → X u → HProp} {J : (u : AllocTy) → Nat → Y u → HProp}
    {f : (u : AllocTy) → Nat → X u → M (Y u)} (hf : ∀ u b x, Triple (I u b x) (f u b x) (J u b)) :
    ∀ {t : AllocTy} (a : Make X t), Triple (a.own I) (a.each f) (fun a' h => a'.sites = a.sites ∧ a'.own J h)
  | _, fresh t => Triple.pure _ fun h hh => ⟨rfl, hh⟩
  | t, moved b x => Triple.bind (hf t b x) fun y => Triple.pure _ fun h hh => ⟨rfl, hh⟩
  | _, freelist a => Triple.bind (each_spec hf a) fun a' => Triple.pure _ fun h hh => hh
  | _, overflow a => Triple.bind (each_spec hf a) fun a' => Triple.pure _ fun h hh => hh
  | _, threaded a => Triple.bind (each_spec hf a) fun a' => Triple.pure _ fun h hh => hh
  | _, shared a => Triple.bind (each_spec hf a) fun a' => Triple.pure _ fun h hh => hh
  | _, fallback p q => by
    refine Triple.bind ((each_spec hf p).frame (q.own I)) fun p' => ?_
    rw [star_and, star_comm]
    refine Triple.and fun hp => Triple.bind ((each_spec hf q).frame _) fun q' => ?_
    rw [star_and, star_comm]
    exact Triple.and fun hq => Triple.pure _ fun h hh => ⟨by simp only [sites, hp, hq], hh⟩
  | _, segragator p q => by
    refine Triple.bind ((each_spec hf p).frame (q.own I)) fun p' => ?_
    rw [star_and, star_comm]
    refine Triple.and fun hp => Triple.bind ((each_spec hf q).frame _) fun q' => ?_
    rw [star_and, star_comm]
    exact Triple.and fun hq => Triple.pure _ fun h hh => ⟨by simp only [sites, hp, hq], hh⟩

/-- Proof helper, not code. -/
def UsedInv (sys : Sys) (u : AllocTy) (b : Nat) (x : Used sys u) : HProp := fun h =>
  Requests (u.fits sys.plat) x.after ∧ ∃ hw : u.WF, ClientInv (u.sound sys hw) b x.c h

theorem live_out : ∀ {t : AllocTy} (a : Make (Used sys) t) (k : Nat), t.depth < k → a.live k = []
  | _, fresh _, _, _ => rfl
  | _, moved _ _, k, h => if_neg (by omega)
  | _, freelist a, k + 1, h => live_out a k (Nat.lt_of_succ_lt_succ h)
  | _, overflow a, k + 1, h => live_out a k (Nat.lt_of_succ_lt_succ h)
  | _, threaded a, k + 1, h => live_out a k (Nat.lt_of_succ_lt_succ h)
  | _, shared a, k + 1, h => live_out a k (Nat.lt_of_succ_lt_succ h)
  | _, fallback _ _, k, h => if_neg (by omega)
  | _, segragator _ _, k, h => if_neg (by omega)

theorem whole_bare (t : AllocTy) (hw : t.WF) (D : Nat → List (Nat × List UInt8)) (hD : ∀ k, D (k + 1) = []) (b : Nat)
    (s : (t.denote sys).St) : (t.whole sys hw D).Inv b s [] = ((t.sound sys hw).Inv b s ((D 0).map blk) ∗ blocksV (D 0)) := by
  show ((t.heldView sys hw fun k => D (k + 1)).Inv b s ([] ++ (D 0).map blk) ∗ blocksV (D 0)) = _
  rw [AllocTy.bare sys t hw _ (fun k _ => hD k)]
  rfl

theorem build_spec : ∀ {t : AllocTy} (a : Make (Used sys) t) (hw : t.WF) (b : Nat) (_ : b ≠ 0) (_ : b % 16 = 0) (_ : b + t.size < W64)
    (_ : a.Permitted), Triple (a.own (UsedInv sys) ∗ bytes b t.size) (a.build b)
      (fun r h => r.2.sites = a.sites ∧ ((t.whole sys hw a.live).Inv b r.1 [] ∗ r.2.own (UsedInv sys)) h) := by
  intro t a
  induction a with
  | fresh t =>
    intro hw b h1 h2 h3 _
    have hsz := AllocTy.objSize_eq sys t
    have hi := (t.sound sys hw).init_spec b h1 h2 (by rw [hsz]; exact h3)
    rw [hsz] at hi
    show Triple (emp ∗ bytes b t.size) _ _
    rw [emp_star]
    refine Triple.bind hi fun s => Triple.pure _ fun h hh => ⟨rfl, ?_⟩
    show ((t.whole sys hw fun _ => []).Inv b s [] ∗ emp) h
    rw [whole_bare t hw _ (fun _ => rfl), star_emp]
    exact (star_emp _).symm ▸ hh
  | @moved t b' u =>
    intro hw b h1 h2 h3 hp
    obtain ⟨hm, hr, hl⟩ := hp
    have hsz := AllocTy.objSize_eq sys t
    show Triple ((fun h => Requests (t.fits sys.plat) u.after ∧ ∃ hw : t.WF, ClientInv (t.sound sys hw) b' u.c h) ∗ bytes b t.size) _ _
    rw [star_and, star_exists]
    refine Triple.and fun hq => Triple.exists fun _ => ?_
    have hc := (AllocTy.builds sys t hw hm).ctor_spec b b' u.c.st (u.c.live.map blk) h1 h2 (by rw [hsz]; exact h3) hr
      (hl.imp (fun h => by rw [h]; rfl) id)
    rw [hsz] at hc
    have e : (ClientInv (t.sound sys hw) b' u.c ∗ bytes b t.size) =
        (((t.sound sys hw).Inv b' u.c.st (u.c.live.map blk) ∗ bytes b t.size) ∗ (blocksV u.c.live ∗ foreignV u.c.foreign)) := by
      unfold ClientInv; ac_rfl
    rw [e]
    refine Triple.bind (hc.frame _) fun r => Triple.pure _ fun h hh => ⟨rfl, ?_⟩
    show ((t.whole sys hw fun k => if k = 0 then u.c.live else []).Inv b r.1 [] ∗
      (fun h => Requests (t.fits sys.plat) u.after ∧ ∃ hw : t.WF, (_ ∗ emp ∗ foreignV u.c.foreign) h)) h
    rw [whole_bare t hw _ (fun k => if_neg (by omega)), star_and']
    refine ⟨hq, ?_⟩
    simp only [if_true]
    have e : ((((t.sound sys hw).Inv b r.1 (u.c.live.map blk) ∗ (t.sound sys hw).Inv b' r.2 []) ∗ blocksV u.c.live ∗ foreignV u.c.foreign)) =
        ((((t.sound sys hw).Inv b r.1 (u.c.live.map blk)) ∗ blocksV u.c.live) ∗ ((t.sound sys hw).Inv b' r.2 [] ∗ emp ∗ foreignV u.c.foreign)) := by
      rw [emp_star]; ac_rfl
    rw [e] at hh
    exact star_mono_right (fun h hh => ⟨hw, hh⟩) _ hh
  | @freelist m M A a ih =>
    intro hw b h1 h2 h3 hp
    have hsz := AllocTy.objSize_eq sys A
    replace h3 : b + (A.size + 16) < W64 := h3
    show Triple (a.own (UsedInv sys) ∗ bytes b (A.size + 16)) _ _
    rw [bytes_split, ← star_assoc]
    refine Triple.bind ((ih hw.1 b h1 h2 (by omega) hp).frame _) fun r => ?_
    rw [star_and]
    refine Triple.and fun hs => Triple.pure _ fun h hh => ⟨hs, ?_⟩
    show (((fun h => _ ∧ ∃ R, Freelist.FInv M (A.whole sys hw.1 a.live) b ⟨r.1, 0⟩ [] R h) ∗ emp) ∗ r.2.own (UsedInv sys)) h
    rw [star_emp, star_and, star_exists]
    refine ⟨fun c hc => (by cases hc), [], ?_⟩
    unfold Freelist.FInv
    rw [star_and]
    refine ⟨⟨rfl, by simp⟩, ?_⟩
    have e : (((A.whole sys hw.1 a.live).Inv b r.1 [] ∗ r.2.own (UsedInv sys)) ∗ bytes (b + A.size) 16) =
       (((A.whole sys hw.1 a.live).Inv b r.1 [] ∗ (emp ∗ emp ∗ bytes (b + (A.denote sys).objSize) 16)) ∗ r.2.own (UsedInv sys)) := by
      rw [emp_star, emp_star, hsz]; ac_rfl
    rw [e] at hh
    exact hh
  | @overflow A a ih =>
    intro hw b h1 h2 h3 hp
    have hsz := AllocTy.objSize_eq sys A
    replace h3 : b + (A.size + 32) < W64 := h3
    show Triple (a.own (UsedInv sys) ∗ bytes b (A.size + 32)) _ _
    rw [bytes_split, ← star_assoc]
    refine Triple.bind ((ih hw b h1 h2 (by omega) hp).frame _) fun r => ?_
    rw [star_and]
    refine Triple.and fun hs => Triple.pure _ fun h hh => ⟨hs, ?_⟩
    show (((fun h => _ ∧ ((A.whole sys hw a.live).Inv b r.1 [] ∗ emp ∗ bytes (b + (A.denote sys).objSize) 32) h) ∗ emp) ∗ r.2.own (UsedInv sys)) h
    rw [star_emp, star_and]
    refine ⟨fun c hc => (by cases hc), ?_⟩
    have e : (((A.whole sys hw a.live).Inv b r.1 [] ∗ r.2.own (UsedInv sys)) ∗ bytes (b + A.size) 32) =
       (((A.whole sys hw a.live).Inv b r.1 [] ∗ (emp ∗ bytes (b + (A.denote sys).objSize) 32)) ∗ r.2.own (UsedInv sys)) := by
      rw [emp_star, hsz]; ac_rfl
    rw [e] at hh
    exact hh
  | @threaded A a ih =>
    intro hw b h1 h2 h3 hp
    have hsz := AllocTy.objSize_eq sys A
    replace h3 : b + (A.size + 48) < W64 := h3
    show Triple (a.own (UsedInv sys) ∗ bytes b (A.size + 48)) _ _
    rw [bytes_split, ← star_assoc]
    refine Triple.bind ((ih hw b h1 h2 (by omega) hp).frame _) fun r => ?_
    rw [star_and]
    refine Triple.and fun hs => Triple.pure _ fun h hh => ⟨hs, ?_⟩
    show ((((A.whole sys hw a.live).Inv b r.1 [] ∗ bytes (b + (A.denote sys).objSize) 48) ∗ emp) ∗ r.2.own (UsedInv sys)) h
    have e : (((A.whole sys hw a.live).Inv b r.1 [] ∗ r.2.own (UsedInv sys)) ∗ bytes (b + A.size) 48) =
       ((((A.whole sys hw a.live).Inv b r.1 [] ∗ bytes (b + (A.denote sys).objSize) 48) ∗ emp) ∗ r.2.own (UsedInv sys)) := by
      rw [star_emp, hsz]; ac_rfl
    rw [e] at hh
    exact hh
  | @shared A a ih =>
    intro hw b h1 h2 h3 hp
    have hsz := AllocTy.objSize_eq sys A
    have hfit : MallocFits sys.plat (Cascading.nodeSize (A.denote sys)) := fun _ => by
      have := hw.2; simp only [Cascading.nodeSize, AllocTy.objSize_eq]; omega
    show Triple (a.own (UsedInv sys) ∗ bytes b 16) _ _
    refine Triple.bind (R := fun r h => r.2.2.sites = a.sites ∧ r.1 ≠ 0 ∧ (((A.whole sys hw.1 a.live).Inv r.1 r.2.1 [] ∗
      bytes (r.1 + (A.denote sys).objSize) 16 ∗ mTok sys.plat r.1 (Cascading.nodeSize (A.denote sys)) ∗ bytes b 16) ∗
        r.2.2.own (UsedInv sys)) h) ?_ fun r => ?_
    · unfold alignedNew
      have hm := (alignedMalloc_spec sys _ hfit).frame (a.own (UsedInv sys) ∗ bytes b 16)
      rw [emp_star] at hm
      refine Triple.bindNull hm (alignedMalloc_null sys _ hfit) (fun p hp' => ?_)
      refine Triple.pre (P := fun h => Good p (Cascading.nodeSize (A.denote sys)) ∧
        ((mTok sys.plat p (Cascading.nodeSize (A.denote sys)) ∗ bytes p (Cascading.nodeSize (A.denote sys))) ∗ a.own (UsedInv sys) ∗ bytes b 16) h) ?_ ?_
      · refine Triple.and fun hg => ?_
        have e : ((mTok sys.plat p (Cascading.nodeSize (A.denote sys)) ∗ bytes p (Cascading.nodeSize (A.denote sys))) ∗ a.own (UsedInv sys) ∗ bytes b 16) =
            ((a.own (UsedInv sys) ∗ bytes p A.size) ∗ (bytes (p + (A.denote sys).objSize) 16 ∗
              mTok sys.plat p (Cascading.nodeSize (A.denote sys)) ∗ bytes b 16)) := by
          conv => lhs; rw [show bytes p (Cascading.nodeSize (A.denote sys)) = bytes p ((A.denote sys).objSize + 16) from rfl, bytes_split, hsz]
          rw [hsz]; ac_rfl
        rw [e]
        refine Triple.bind ((ih hw.1 p hp' hg.2.1 ?_ hp).frame _) fun r => ?_
        · have := hg.2.2; unfold Cascading.nodeSize at this; rw [hsz] at this; omega
        · rw [star_and]
          refine Triple.and fun hs => Triple.pure _ fun h hh => ⟨hs, hp', ?_⟩
          rw [star_assoc, star_comm (r.2.own _), ← star_assoc] at hh
          exact hh
      · rintro _ ⟨k1, k2, hd, rfl, h | h, hk⟩
        · exact absurd h.1 hp'
        · exact ⟨h.1, k1, k2, hd, rfl, h.2, hk⟩
    · refine Triple.and fun hs => Triple.and fun h0 => Triple.pure _ fun h hh => ⟨hs, ?_⟩
      show (((fun h => r.1 ≠ 0 ∧ _) ∗ emp) ∗ r.2.2.own (UsedInv sys)) h
      rw [star_emp, star_and]
      exact ⟨h0, hh⟩
  | @fallback P F p f ihp ihf =>
    intro hw b h1 h2 h3 hp
    obtain ⟨hp1, hp2, hk, hl⟩ := hp
    have hszP := AllocTy.objSize_eq sys P
    have ha := (P.sound sys hw.1).objAlign
    rw [hszP] at ha
    replace h3 : b + (P.size + F.size) < W64 := h3
    show Triple ((p.own (UsedInv sys) ∗ f.own (UsedInv sys)) ∗ bytes b (P.size + F.size)) _ _
    have e : ((p.own (UsedInv sys) ∗ f.own (UsedInv sys)) ∗ bytes b (P.size + F.size)) =
        ((p.own (UsedInv sys) ∗ bytes b P.size) ∗ (f.own (UsedInv sys) ∗ bytes (b + (P.denote sys).objSize) F.size)) := by
      rw [bytes_split, hszP]; ac_rfl
    rw [e]
    refine Triple.bind ((ihp hw.1 b h1 h2 (by omega) hp1).frame _) fun r => ?_
    rw [star_and, star_comm]
    refine Triple.and fun hs1 => Triple.bind ((ihf hw.2.1 (b + (P.denote sys).objSize) (by omega) (by omega) (by omega) hp2).frame _) fun q => ?_
    rw [star_and]
    refine Triple.and fun hs2 => Triple.pure _ fun h hh => ⟨by simp only [sites, hs1, hs2], ?_⟩
    show (((AllocTy.fallback P F).whole sys hw fun k => if k = 0 then p.live 0 ++ f.live 0 else []).Inv b (r.1, q.1) [] ∗
      (r.2.own (UsedInv sys) ∗ q.2.own (UsedInv sys))) h
    refine star_mono_left (fun g hg => (congrFun (whole_bare (.fallback P F) hw (fun k => if k = 0 then p.live 0 ++ f.live 0 else [])
      (fun k => if_neg (by omega)) b ((r.1, q.1) : (P.denote sys).St × (F.denote sys).St)) g).mpr hg) h ?_
    rw [whole_bare P hw.1 _ (fun k => (hk k).1), whole_bare F hw.2.1 _ (fun k => (hk k).2)] at hh
    show ((_ ∗ blocksV (p.live 0 ++ f.live 0)) ∗ _) h
    rw [blocksV_append, star_assoc]
    have e : (((((F.sound sys hw.2.1).Inv (b + (P.denote sys).objSize) q.1 ((f.live 0).map blk) ∗ blocksV (f.live 0)) ∗ q.2.own (UsedInv sys)) ∗
        ((P.sound sys hw.1).Inv b r.1 ((p.live 0).map blk) ∗ blocksV (p.live 0)) ∗ r.2.own (UsedInv sys))) =
        (((P.sound sys hw.1).Inv b r.1 ((p.live 0).map blk) ∗ (F.sound sys hw.2.1).Inv (b + (P.denote sys).objSize) q.1 ((f.live 0).map blk)) ∗
          ((blocksV (p.live 0) ∗ blocksV (f.live 0)) ∗ r.2.own (UsedInv sys) ∗ q.2.own (UsedInv sys))) := by ac_rfl
    rw [e] at hh
    refine star_mono_left (fun h hh => ⟨?_, _, _, ?_, hh⟩) _ hh
    · intro c hc
      obtain ⟨x, hx, rfl⟩ := List.mem_map.1 hc
      exact AllocTy.fits_of_margin sys.plat (.fallback P F) hw _ (hl x hx).1 (hl x hx).2
    · show ((p.live 0 ++ f.live 0).map blk).Perm _
      rw [List.map_append]
  | @segragator T P F p f ihp ihf =>
    intro hw b h1 h2 h3 hp
    obtain ⟨hp1, hp2, hk, hl, hlo, hhi⟩ := hp
    have hszP := AllocTy.objSize_eq sys P
    have ha := (P.sound sys hw.1).objAlign
    rw [hszP] at ha
    replace h3 : b + (P.size + F.size) < W64 := h3
    show Triple ((p.own (UsedInv sys) ∗ f.own (UsedInv sys)) ∗ bytes b (P.size + F.size)) _ _
    have e : ((p.own (UsedInv sys) ∗ f.own (UsedInv sys)) ∗ bytes b (P.size + F.size)) =
        ((p.own (UsedInv sys) ∗ bytes b P.size) ∗ (f.own (UsedInv sys) ∗ bytes (b + (P.denote sys).objSize) F.size)) := by
      rw [bytes_split, hszP]; ac_rfl
    rw [e]
    refine Triple.bind ((ihp hw.1 b h1 h2 (by omega) hp1).frame _) fun r => ?_
    rw [star_and, star_comm]
    refine Triple.and fun hs1 => Triple.bind ((ihf hw.2 (b + (P.denote sys).objSize) (by omega) (by omega) (by omega) hp2).frame _) fun q => ?_
    rw [star_and]
    refine Triple.and fun hs2 => Triple.pure _ fun h hh => ⟨by simp only [sites, hs1, hs2], ?_⟩
    show (((AllocTy.segragator T P F).whole sys hw fun k => if k = 0 then p.live 0 ++ f.live 0 else []).Inv b (r.1, q.1) [] ∗
      (r.2.own (UsedInv sys) ∗ q.2.own (UsedInv sys))) h
    refine star_mono_left (fun g hg => (congrFun (whole_bare (.segragator T P F) hw (fun k => if k = 0 then p.live 0 ++ f.live 0 else [])
      (fun k => if_neg (by omega)) b ((r.1, q.1) : (P.denote sys).St × (F.denote sys).St)) g).mpr hg) h ?_
    rw [whole_bare P hw.1 _ (fun k => (hk k).1), whole_bare F hw.2 _ (fun k => (hk k).2)] at hh
    show ((_ ∗ blocksV (p.live 0 ++ f.live 0)) ∗ _) h
    rw [blocksV_append, star_assoc]
    have e : (((((F.sound sys hw.2).Inv (b + (P.denote sys).objSize) q.1 ((f.live 0).map blk) ∗ blocksV (f.live 0)) ∗ q.2.own (UsedInv sys)) ∗
        ((P.sound sys hw.1).Inv b r.1 ((p.live 0).map blk) ∗ blocksV (p.live 0)) ∗ r.2.own (UsedInv sys))) =
        (((P.sound sys hw.1).Inv b r.1 ((p.live 0).map blk) ∗ (F.sound sys hw.2).Inv (b + (P.denote sys).objSize) q.1 ((f.live 0).map blk)) ∗
          ((blocksV (p.live 0) ∗ blocksV (f.live 0)) ∗ r.2.own (UsedInv sys) ∗ q.2.own (UsedInv sys))) := by ac_rfl
    rw [e] at hh
    have elo : lo T ((p.live 0 ++ f.live 0).map blk) = (p.live 0).map blk := by
      rw [List.map_append, lo, List.filter_append, List.filter_eq_self.2, List.filter_eq_nil_iff.2, List.append_nil]
      · intro c hc
        obtain ⟨x, hx, rfl⟩ := List.mem_map.1 hc
        exact fun h => absurd (of_decide_eq_true h) (Nat.not_le.2 (hhi x hx))
      · intro c hc
        obtain ⟨x, hx, rfl⟩ := List.mem_map.1 hc
        exact decide_eq_true (hlo x hx)
    have ehi : hi T ((p.live 0 ++ f.live 0).map blk) = (f.live 0).map blk := by
      rw [List.map_append, hi, List.filter_append, List.filter_eq_nil_iff.2, List.filter_eq_self.2, List.nil_append]
      · intro c hc
        obtain ⟨x, hx, rfl⟩ := List.mem_map.1 hc
        exact congrArg (!·) (decide_eq_false (Nat.not_le.2 (hhi x hx)))
      · intro c hc
        obtain ⟨x, hx, rfl⟩ := List.mem_map.1 hc
        exact fun h => by
          have e : decide ((blk x).2 ≤ T) = true := decide_eq_true (hlo x hx)
          rw [e] at h; cases h
    refine star_mono_left (fun h hh => ⟨?_, ?_⟩) _ hh
    · intro c hc
      obtain ⟨x, hx, rfl⟩ := List.mem_map.1 hc
      exact AllocTy.fits_of_margin sys.plat (.segragator T P F) hw _ (hl x hx).1 (hl x hx).2
    · show ((P.sound sys hw.1).Inv b r.1 (lo T ((p.live 0 ++ f.live 0).map blk)) ∗
        (F.sound sys hw.2).Inv (b + (P.denote sys).objSize) q.1 (hi T ((p.live 0 ++ f.live 0).map blk))) h
      rw [elo, ehi]; exact hh

end Make
end KTL
