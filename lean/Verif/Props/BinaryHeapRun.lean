import Verif.Containers.BinaryHeapOps
import Verif.Props.Vector

/- Programs with any number of `binary_heap`s: specification and proof that runs meet it. The properties are in `Props/BinaryHeap.lean`. -/
namespace KTL
variable {α : Type}

/-! ### Specification -/

/-- What a program with bags instead of heaps has: the bags, as lists in iteration order, and what it has seen. -/
structure Bags (α : Type) where
  xs : List (List α)
  seen : List (HObs α) := []

/-- The meaning of the operations on bags. Operations outside their precondition do nothing. The order of a bag is not
specified, except that nothing in it comes before its first element if `comp` is a strict weak order. -/
def Bags.Step (comp eq : α → α → Bool) (c : Bags α) (op : BOp α) (c' : Bags α) : Prop :=
  match op with
  | .new | .newCap _ => c' = { c with xs := c.xs ++ [[]] }
  | .newList vs => ∃ ys, ys.Perm vs ∧ c' = { c with xs := c.xs ++ [ys] }
  | .copy j =>
    match c.xs[j]? with
    | some ys => c' = { c with xs := c.xs ++ [ys] }
    | none => c' = c
  | .move j =>
    match c.xs[j]? with
    | some ys => c' = { c with xs := c.xs.set j [] ++ [ys] }
    | none => c' = c
  | .copyAssign i j =>
    match c.xs[i]?, c.xs[j]? with
    | some _, some ys => c' = if i = j then c else { c with xs := c.xs.set i ys }
    | _, _ => c' = c
  | .moveAssign i j =>
    match c.xs[i]?, c.xs[j]? with
    | some _, some ys => c' = { c with xs := (c.xs.set i ys).set j [] }
    | _, _ => c' = c
  | .destroy i => c' = { c with xs := c.xs.eraseIdx i }
  | .reserve _ _ => c' = c
  | .insert i v =>
    match c.xs[i]? with
    | some ys => ∃ zs, zs.Perm (v :: ys) ∧ c' = { xs := c.xs.set i zs, seen := c.seen ++ [.elem v] }
    | none => c' = c
  | .insertFrom i j k =>
    match c.xs[i]?, c.xs[j]? with
    | some ys, some us =>
      match us[k]? with
      | some v => if i = j then c' = c else ∃ zs, zs.Perm (v :: ys) ∧ c' = { c with xs := c.xs.set i zs }
      | none => c' = c
    | _, _ => c' = c
  | .pop i =>
    match c.xs[i]? with
    | some (v :: ys) => (StrictWeak comp → ∀ x ∈ v :: ys, comp x v = false) ∧
        ∃ zs, zs.Perm ys ∧ c' = { xs := c.xs.set i zs, seen := c.seen ++ [.elem v] }
    | _ => c' = c
  | .peek i =>
    match c.xs[i]? with
    | some (v :: ys) => (StrictWeak comp → ∀ x ∈ v :: ys, comp x v = false) ∧ c' = { c with seen := c.seen ++ [.elem v] }
    | _ => c' = c
  | .find i v =>
    match c.xs[i]? with
    | some ys => c' = { c with seen := c.seen ++ [.found (ys.any fun x => eq x v)] }
    | none => c' = c
  | .clear i => c' = { c with xs := c.xs.set i [] }

/-- `ops` can take the bags from `c` to `c'`. -/
inductive Bags.Run (comp eq : α → α → Bool) : Bags α → List (BOp α) → Bags α → Prop
  | nil (c) : Run comp eq c [] c
  | cons {c op c' ops c''} : c.Step comp eq op c' → Run comp eq c' ops c'' → Run comp eq c (op :: ops) c''

/-- How many elements an operation asks for. -/
def BOp.weight : BOp α → Nat
  | .newCap n | .reserve _ n => n
  | .newList vs => vs.length
  | .insert _ _ | .insertFrom _ _ _ => 1
  | _ => 0

/-- The sum over a program. -/
def hweights : List (BOp α) → Nat
  | [] => 0
  | o :: os => o.weight + hweights os

/-- The operation may allocate zero bytes (see C58 for compositions that cannot serve that). -/
def BOp.mayBeEmpty : BOp α → Bool
  | .newCap 0 | .newList [] | .copy _ | .copyAssign _ _ => true
  | _ => false

/-- The sizes of the heaps after an operation. -/
def BOp.sizes (ns : List Nat) : BOp α → List Nat
  | .new | .newCap _ => ns ++ [0]
  | .newList vs => ns ++ [vs.length]
  | .copy j => match ns[j]? with
    | some n => ns ++ [n]
    | none => ns
  | .move j => match ns[j]? with
    | some n => ns.set j 0 ++ [n]
    | none => ns
  | .copyAssign i j => match ns[i]?, ns[j]? with
    | some _, some n => if i = j then ns else ns.set i n
    | _, _ => ns
  | .moveAssign i j => match ns[i]?, ns[j]? with
    | some _, some n => (ns.set i n).set j 0
    | _, _ => ns
  | .destroy i => ns.eraseIdx i
  | .insert i _ => match ns[i]? with
    | some n => ns.set i (n + 1)
    | none => ns
  | .insertFrom i j k => match ns[i]?, ns[j]? with
    | some n, some m => if i ≠ j ∧ k < m then ns.set i (n + 1) else ns
    | _, _ => ns
  | .pop i => match ns[i]? with
    | some n => ns.set i (n - 1)
    | none => ns
  | .clear i => ns.set i 0
  | .reserve _ _ | .peek _ | .find _ _ => ns

/-- Some `pop` removes the last element of a heap. -/
def popsLast (ns : List Nat) : List (BOp α) → Bool
  | [] => false
  | o :: os => (match o with
    | .pop i => ns[i]? == some 1
    | _ => false) || popsLast (o.sizes ns) os

/-- The storage the program may ask for fits in the address space and in the allocator's arithmetic; and it does not make the empty
allocations that some compositions cannot serve (C58). -/
def HSane (t : AllocTy) (E : Elt α) (ops : List (BOp α)) : Prop :=
  E.size * (2 * hweights ops) + t.margin < 2 ^ 64 ∧ ((∃ o ∈ ops, o.mayBeEmpty = true) → t.noRouting = true)

/-- The memory at `q` holds the elements `xs`: they have been constructed, not destroyed, and their bytes are there. -/
def Holds (E : Elt α) (o : Objs α) (w : World) (q : Nat) (xs : List α) : Prop :=
  ∀ (k : Nat) (x : α), xs[k]? = some x → o (q + k * E.size) = some ⟨x, true⟩ ∧
    ∀ j, j < E.size → w.heap.b (q + k * E.size + j) = (E.enc x)[j]?

/-! ### Proof -/

structure HGhost.Fine (comp : α → α → Bool) (T : Nat) (g : HGhost α) : Prop where
  ok : g.Ok
  cap_le : g.h.cap ≤ 2 * T
  size_le : g.xs.length ≤ T
  ord : StrictWeak comp → HeapOrd comp g.xs

theorem HGhost.Fine.mono {comp : α → α → Bool} {T T' : Nat} {g : HGhost α} (h : g.Fine comp T) (hT : T ≤ T') : g.Fine comp T' :=
  ⟨h.ok, by have := h.cap_le; omega, by have := h.size_le; omega, h.ord⟩

theorem HGhost.empty_fine {comp : α → α → Bool} {T : Nat} : (HGhost.empty : HGhost α).Fine comp T :=
  ⟨HGhost.empty_ok, Nat.zero_le _, Nat.zero_le _, fun _ => HeapOrd.nil⟩

def HInv {A : Allocator} {fA : Nat → Prop} (hA : Sound A fA) (b : Nat) (E : Elt α) (comp : α → α → Bool) (T : Nat) (ns : List Nat)
    (c : BHeaps A α) (S : Bags α) : HProp := fun x =>
  ∃ Γ : List (HGhost α), c.hs = Γ.map HGhost.h ∧ S.xs = Γ.map HGhost.xs ∧ ns = Γ.map (fun g => g.xs.length) ∧ c.seen = S.seen ∧
    (∀ g ∈ Γ, g.Fine comp T) ∧ TPool hA b E c.st c.objs (Γ.flatMap HGhost.own) x

theorem hown_perm {Γ : List (HGhost α)} {i : Nat} {g : HGhost α} (h : Γ[i]? = some g) :
    (Γ.flatMap HGhost.own).Perm (g.own ++ (Γ.eraseIdx i).flatMap HGhost.own) := by
  have := (perm_eraseIdx h).flatMap_right HGhost.own
  simpa using this

theorem hown_set {Γ : List (HGhost α)} {i : Nat} {g : HGhost α} (h : Γ[i]? = some g) (g' : HGhost α) :
    ((Γ.set i g').flatMap HGhost.own).Perm (g'.own ++ (Γ.eraseIdx i).flatMap HGhost.own) := by
  have := (perm_set (y := g') h).flatMap_right HGhost.own
  simpa using this

theorem hown_append (Γ : List (HGhost α)) (g : HGhost α) : ((Γ ++ [g]).flatMap HGhost.own).Perm (g.own ++ Γ.flatMap HGhost.own) := by
  simpa using List.perm_append_comm (l₁ := Γ.flatMap HGhost.own) (l₂ := g.own)

theorem hown_mem {Γ : List (HGhost α)} {i j : Nat} {g : HGhost α} (hij : i ≠ j) (hj : Γ[j]? = some g) :
    ∀ y ∈ g.own, y ∈ (Γ.eraseIdx i).flatMap HGhost.own := by
  intro y hy
  refine List.mem_flatMap.2 ⟨g, ?_, hy⟩
  rw [List.mem_eraseIdx_iff_getElem?]
  exact ⟨j, Ne.symm hij, hj⟩

section
variable {A : Allocator} {fA : Nat → Prop} {hA : Sound A fA} {b T T' : Nat} {E : Elt α} {comp eq : α → α → Bool} {c : BHeaps A α} {S : Bags α}
  {Γ : List (HGhost α)} {ns ns' : List Nat} {x : Heap}

theorem HInv.set (hok : ∀ g ∈ Γ, g.Fine comp T) (hT : T ≤ T') {i : Nat} {g g' : HGhost α} (hi : Γ[i]? = some g) (h' : g'.Fine comp T')
    {s : A.St} {o : Objs α} (hp : TPool hA b E s o (g'.own ++ (Γ.eraseIdx i).flatMap HGhost.own) x) (hv : c.hs = Γ.map HGhost.h)
    (hx : S.xs = Γ.map HGhost.xs) (hn : ns = Γ.map (fun g => g.xs.length)) {c' : BHeaps A α} {S' : Bags α} (hc : c'.st = s) (hco : c'.objs = o)
    (hcv : c'.hs = c.hs.set i g'.h) (hS : S'.xs = S.xs.set i g'.xs) (hn' : ns' = ns.set i g'.xs.length)
    (hseen : c'.seen = S'.seen) : HInv hA b E comp T' ns' c' S' x := by
  refine ⟨Γ.set i g', ?_, ?_, ?_, hseen, ?_, ?_⟩
  · rw [hcv, hv, List.map_set]
  · rw [hS, hx, List.map_set]
  · rw [hn', hn, List.map_set]
  · intro g1 hg1
    rcases List.mem_or_eq_of_mem_set hg1 with h | h
    · exact (hok g1 h).mono hT
    · rw [h]; exact h'
  · rw [hc, hco, TPool.perm (hown_set hi g')]; exact hp

theorem HInv.add (hok : ∀ g ∈ Γ, g.Fine comp T) (hT : T ≤ T') {g' : HGhost α} (h' : g'.Fine comp T')
    {s : A.St} {o : Objs α} (hp : TPool hA b E s o (g'.own ++ Γ.flatMap HGhost.own) x) (hv : c.hs = Γ.map HGhost.h)
    (hx : S.xs = Γ.map HGhost.xs) (hn : ns = Γ.map (fun g => g.xs.length)) {c' : BHeaps A α} {S' : Bags α} (hc : c'.st = s) (hco : c'.objs = o)
    (hcv : c'.hs = c.hs ++ [g'.h]) (hS : S'.xs = S.xs ++ [g'.xs]) (hn' : ns' = ns ++ [g'.xs.length])
    (hseen : c'.seen = S'.seen) : HInv hA b E comp T' ns' c' S' x := by
  refine ⟨Γ ++ [g'], ?_, ?_, ?_, hseen, ?_, ?_⟩
  · rw [hcv, hv]; simp
  · rw [hS, hx]; simp
  · rw [hn', hn]; simp
  · intro g1 hg1
    rcases List.mem_append.1 hg1 with h | h
    · exact (hok g1 h).mono hT
    · rw [List.mem_singleton.1 h]; exact h'
  · rw [hc, hco, TPool.perm (hown_append Γ g')]; exact hp

theorem HInv.get (hv : c.hs = Γ.map HGhost.h) (hx : S.xs = Γ.map HGhost.xs) (hn : ns = Γ.map (fun g => g.xs.length)) (i : Nat) :
    (Γ[i]? = none ∧ c.hs[i]? = none ∧ S.xs[i]? = none ∧ ns[i]? = none) ∨
    ∃ g, Γ[i]? = some g ∧ g ∈ Γ ∧ c.hs[i]? = some g.h ∧ S.xs[i]? = some g.xs ∧ ns[i]? = some g.xs.length := by
  rw [hv, hx, hn]
  simp only [List.getElem?_map]
  cases h : Γ[i]? with
  | none => left; exact ⟨rfl, rfl, rfl, rfl⟩
  | some g => right; exact ⟨g, rfl, List.mem_of_getElem? h, rfl, rfl, rfl⟩

theorem HInv.keep (hok : ∀ g ∈ Γ, g.Fine comp T) (hT : T ≤ T') (hv : c.hs = Γ.map HGhost.h)
    (hx : S.xs = Γ.map HGhost.xs) (hn : ns = Γ.map (fun g => g.xs.length)) (hs : c.seen = S.seen)
    (hp : TPool hA b E c.st c.objs (Γ.flatMap HGhost.own) x) : HInv hA b E comp T' ns c S x :=
  ⟨Γ, hv, hx, hn, hs, fun g hg => (hok g hg).mono hT, hp⟩
end

theorem hgrown_le {cap size T : Nat} (h1 : size ≤ cap) (h2 : cap ≤ 2 * T) (h3 : size ≤ T) : hgrown size cap ≤ 2 * (T + 1) := by
  unfold hgrown; split <;> omega

theorem set_same {β : Type} {l : List β} {k : Nat} {v : β} (h : l[k]? = some v) : l.set k v = l := set_self h

/-- nothing comes before the first element -/
theorem HGhost.Fine.root {comp : α → α → Bool} {T : Nat} {g : HGhost α} (h : g.Fine comp T) {v : α} {ys : List α} (hx : g.xs = v :: ys) :
    StrictWeak comp → ∀ x ∈ v :: ys, comp x v = false := by
  intro hs x hm
  obtain ⟨k, hk⟩ := List.getElem?_of_mem hm
  rw [← hx] at hk
  exact (h.ord hs).root hs k v x (by rw [hx]; rfl) hk

/-- The order of the elements, which the specification leaves open. Proof helper, not code. -/
def Bags.Exact (comp : α → α → Bool) (c : Bags α) (op : BOp α) (c' : Bags α) : Prop :=
  match op with
  | .newList vs => c'.xs = c.xs ++ [vs.foldl (heapInsert comp) []]
  | .insert i v => ∀ ys, c.xs[i]? = some ys → c'.xs = c.xs.set i (heapInsert comp ys v)
  | .insertFrom i j k => ∀ ys us v, c.xs[i]? = some ys → c.xs[j]? = some us → us[k]? = some v → i ≠ j → c'.xs = c.xs.set i (heapInsert comp ys v)
  | .pop i => ∀ v ys, c.xs[i]? = some (v :: ys) → c'.xs = c.xs.set i (heapPop comp ys)
  | _ => True

/-- An operation keeps the heap it is called on in order. Proof helper, not code. -/
def Bags.Ordered (comp : α → α → Bool) (c : Bags α) (op : BOp α) : Prop :=
  StrictWeak comp → match op with
  | .newList vs => HeapOrd comp (vs.foldl (heapInsert comp) [])
  | .insert i v => ∀ ys, c.xs[i]? = some ys → HeapOrd comp ys → HeapOrd comp (heapInsert comp ys v)
  | .insertFrom i j k => ∀ ys us v, c.xs[i]? = some ys → c.xs[j]? = some us → us[k]? = some v → i ≠ j → HeapOrd comp ys → HeapOrd comp (heapInsert comp ys v)
  | .pop i => ∀ v ys, c.xs[i]? = some (v :: ys) → HeapOrd comp (v :: ys) → HeapOrd comp (heapPop comp ys)
  | _ => True

/-- One operation, with `comp` as the comparator of the heap it is called on, if all heaps are in order by `ord`, or in no order at all. -/
theorem hstep_both {A : Allocator} {fA : Nat → Prop} (hA : Sound A fA) (b T N : Nat) {E : Elt α} (hE : E.Ok) (comp ord eq : α → α → Bool)
    (hcc : ord = comp ∨ ¬ StrictWeak ord) (ns : List Nat)
    (c : BHeaps A α) (S : Bags α) (op : BOp α) (hfit : ∀ n, 0 < n → n ≤ 2 * N → E.size * n < W64 ∧ fA (E.size * n))
    (h0 : op.mayBeEmpty = true → fA 0) (hN : T + op.weight ≤ N) (hpop : E.trivial = true ∨ popsLast ns [op] = false) :
    Triple (HInv hA b E ord T ns c S) (c.step E comp eq op)
      (fun c' x => ∃ S', (S.Step ord eq op S' ∧ S.Exact comp op S' ∧ S.Ordered comp op) ∧ HInv hA b E ord (T + op.weight) (op.sizes ns) c' S' x) := by
  refine Triple.exists fun Γ => Triple.and fun hv => Triple.and fun hx => Triple.and fun hn => Triple.and fun hs => Triple.and fun hok => ?_
  have hW : ∀ n, n ≤ 2 * N → E.size * n < W64 := fun n hn => by
    by_cases h : n = 0
    · subst h; rw [Nat.mul_zero]; decide
    · exact (hfit n (by omega) hn).1
  have hF : ∀ n, (n = 0 → fA 0) → n ≤ 2 * N → fA (E.size * n) := fun n hn0 hn => by
    by_cases h : n = 0
    · subst h; exact hn0 rfl
    · exact (hfit n (by omega) hn).2
  have hord : ∀ {xs}, (StrictWeak comp → HeapOrd comp xs) → StrictWeak ord → HeapOrd ord xs := fun h hw => by
    rcases hcc with rfl | hns
    · exact h hw
    · exact absurd hw hns
  have hord2 : ∀ {ys xs}, (StrictWeak comp → HeapOrd comp ys → HeapOrd comp xs) → (StrictWeak ord → HeapOrd ord ys) → StrictWeak ord → HeapOrd ord xs :=
    fun h hy hw => by
      rcases hcc with rfl | hns
      · exact h hw (hy hw)
      · exact absurd hw hns
  have hC : ∀ g ∈ Γ, E.size * g.h.cap < W64 := fun g hg => hW _ (by have := (hok g hg).cap_le; omega)
  have skip : op.sizes ns = ns → S.Step ord eq op S ∧ S.Exact comp op S ∧ S.Ordered comp op →
      Triple (TPool hA b E c.st c.objs (Γ.flatMap HGhost.own)) (pure c : M (BHeaps A α))
        (fun c' x => ∃ S', (S.Step ord eq op S' ∧ S.Exact comp op S' ∧ S.Ordered comp op) ∧ HInv hA b E ord (T + op.weight) (op.sizes ns) c' S' x) := fun e hS' =>
    Triple.pure _ (fun x hp => ⟨S, hS', by rw [e]; exact HInv.keep hok (Nat.le_add_right _ _) hv hx hn hs hp⟩)
  cases op with
  | new =>
    refine Triple.pure _ (fun x hp => ⟨_, ⟨rfl, trivial, fun _ => trivial⟩, ?_⟩)
    exact HInv.add (g' := HGhost.empty) hok (Nat.le_refl _) HGhost.empty_fine hp hv hx hn rfl rfl rfl rfl rfl hs
  | newCap n =>
    simp only [BOp.weight] at hN
    refine Triple.bind (BHeap.ofCap_spec hE n (hF n (fun h => h0 (by subst h; rfl)) (by omega)) (hW _ (by omega))) (fun r => ?_)
    refine Triple.exists fun g => Triple.and fun h1 => Triple.and fun h2 => Triple.and fun h3 => Triple.and fun h4 => Triple.pure _ (fun x hp => ⟨_, ⟨rfl, trivial, fun _ => trivial⟩, ?_⟩)
    rw [← h1] at h4
    exact HInv.add (g' := g) hok (Nat.le_add_right _ _) ⟨h2, by simp only [BOp.weight]; omega, by rw [h3]; simp, fun _ => by rw [h3]; exact HeapOrd.nil⟩ hp hv hx hn
      rfl rfl (by rw [h1]) (by rw [h3]) (by rw [h3]; rfl) hs
  | newList vs =>
    simp only [BOp.weight] at hN
    refine Triple.bind (BHeap.ofList_spec hE vs (hF _ (fun h => h0 (by rw [List.length_eq_zero_iff.1 h]; rfl)) (by omega)) (hW _ (by omega))) (fun r => ?_)
    refine Triple.exists fun g => Triple.and fun h1 => Triple.and fun h2 => Triple.and fun h3 => Triple.and fun h4 => Triple.and fun h5 => Triple.pure _ (fun x hp => ?_)
    rw [← h1] at h5
    refine ⟨{ S with xs := S.xs ++ [g.xs] }, ⟨⟨g.xs, h3, rfl⟩, by show S.xs ++ [g.xs] = _; rw [h4.2], fun hw => by show HeapOrd comp (vs.foldl (heapInsert comp) []); rw [← h4.2]; exact h4.1 hw⟩, ?_⟩
    exact HInv.add (g' := g) hok (Nat.le_add_right _ _) ⟨h2, by simp only [BOp.weight]; omega, by rw [h3.length_eq]; simp only [BOp.weight]; omega, hord h4.1⟩ hp hv hx hn
      rfl rfl (by rw [h1]) rfl (by rw [h3.length_eq]; rfl) hs
  | copy j =>
    rcases HInv.get hv hx hn j with ⟨h1, h2, h3, h4⟩ | ⟨g, h1, h1', h2, h3, h4⟩
    · simp only [BHeaps.step, h2]
      exact skip (by simp only [BOp.sizes, h4]) ⟨by simp only [Bags.Step, h3], trivial, fun _ => trivial⟩
    · simp only [BHeaps.step, h2]
      have hg := hok g h1'
      have hle := hg.size_le
      rw [TPool.perm (hown_perm h1)]
      simp only [BOp.weight] at hN
      refine Triple.bind (BHeap.copy_spec hE hg.ok (hF _ (fun _ => h0 rfl) (by omega)) (hW _ (by omega))) (fun r => ?_)
      refine Triple.exists fun g' => Triple.and fun k1 => Triple.and fun k2 => Triple.and fun k3 => Triple.and fun k4 => Triple.pure _ (fun x hp => ?_)
      rw [← k1] at k4
      rw [TPool.perm ((hown_perm h1).symm.append_left _)] at hp
      refine ⟨{ S with xs := S.xs ++ [g.xs] }, ⟨by simp only [Bags.Step, h3], trivial, fun _ => trivial⟩, ?_⟩
      exact HInv.add (g' := g') hok (Nat.le_add_right _ _) ⟨k2, by rw [k4]; omega, by rw [k3]; simp only [BOp.weight]; omega, by rw [k3]; exact hg.ord⟩ hp hv hx hn
        rfl rfl (by rw [k1]) (by rw [k3]) (by simp only [BOp.sizes, h4, k3]) hs
  | move j =>
    rcases HInv.get hv hx hn j with ⟨h1, h2, h3, h4⟩ | ⟨g, h1, h1', h2, h3, h4⟩
    · simp only [BHeaps.step, h2]
      exact skip (by simp only [BOp.sizes, h4]) ⟨by simp only [Bags.Step, h3], trivial, fun _ => trivial⟩
    · simp only [BHeaps.step, h2]
      refine Triple.pure _ (fun x hp => ?_)
      refine ⟨{ S with xs := S.xs.set j [] ++ [g.xs] }, ⟨by simp only [Bags.Step, h3], trivial, fun _ => trivial⟩, Γ.set j HGhost.empty ++ [g], ?_, ?_, ?_, hs, ?_, ?_⟩
      · simp [hv, List.map_set, HGhost.empty]
      · simp [hx, List.map_set, HGhost.empty]
      · simp only [BOp.sizes, h4]; simp [hn, List.map_set, HGhost.empty]
      · intro g1 hg1
        rcases List.mem_append.1 hg1 with h | h
        · rcases List.mem_or_eq_of_mem_set h with h | h
          · exact (hok g1 h).mono (Nat.le_add_right _ _)
          · rw [h]; exact HGhost.empty_fine
        · rw [List.mem_singleton.1 h]; exact (hok g h1').mono (Nat.le_add_right _ _)
      · have e : ((Γ.set j HGhost.empty ++ [g]).flatMap HGhost.own).Perm (Γ.flatMap HGhost.own) := by
          refine (hown_append _ g).trans ?_
          refine .trans ?_ (hown_perm h1).symm
          exact (hown_set h1 HGhost.empty).append_left _
        rw [TPool.perm e]; exact hp
  | copyAssign i j =>
    simp only [BHeaps.step]
    by_cases hij : i = j
    · rw [if_pos hij]
      subst hij
      rcases HInv.get hv hx hn i with ⟨h1, h2, h3, h4⟩ | ⟨g, h1, h1', h2, h3, h4⟩
      · exact skip (by simp only [BOp.sizes, h4]) ⟨by simp only [Bags.Step, h3], trivial, fun _ => trivial⟩
      · exact skip (by simp only [BOp.sizes, h4, if_true]) ⟨by simp only [Bags.Step, h3, if_true], trivial, fun _ => trivial⟩
    · rw [if_neg hij]
      unfold BHeaps.copyAssign
      rcases HInv.get hv hx hn i with ⟨h1, h2, h3, h4⟩ | ⟨g, h1, h1', h2, h3, h4⟩
      · simp only [h2]
        exact skip (by simp only [BOp.sizes, h4]) ⟨by simp only [Bags.Step, h3], trivial, fun _ => trivial⟩
      · rcases HInv.get hv hx hn j with ⟨k1, k2, k3, k4⟩ | ⟨o, k1, k1', k2, k3, k4⟩
        · simp only [h2, k2]
          exact skip (by simp only [BOp.sizes, h4, k4]) ⟨by simp only [Bags.Step, h3, k3], trivial, fun _ => trivial⟩
        · simp only [h2, k2]
          have ho := hok o k1'
          have hle := ho.size_le
          simp only [BOp.weight] at hN
          rw [TPool.perm (hown_perm h1)]
          refine Triple.bind (BHeap.destroy_spec hE (hok g h1').ok (hC g h1')) (fun y => ?_)
          have hset : ∀ v' : BHeap, (c.hs.set i v')[j]? = some o.h := fun v' => by
            rw [List.getElem?_set_ne hij]; exact k2
          simp only [hset]
          obtain ⟨m, hm⟩ : ∃ m, (Γ.eraseIdx i)[m]? = some o := by
            have : o ∈ Γ.eraseIdx i := (List.mem_eraseIdx_iff_getElem?).2 ⟨j, Ne.symm hij, k1⟩
            exact List.getElem?_of_mem this
          have key := BHeap.copy_spec (hA := hA) (b := b) (s := y.1) (o := y.2) (Γ := ((Γ.eraseIdx i).eraseIdx m).flatMap HGhost.own) hE ho.ok
            (hF _ (fun _ => h0 rfl) (by omega)) (hW _ (by omega))
          rw [← TPool.perm (hown_perm hm)] at key
          have key2 := Triple.bind key (f := fun r => (pure { c with st := r.1, objs := r.2.1, hs := c.hs.set i r.2.2 } : M (BHeaps A α)))
            (Q := fun c' x => ∃ S', (S.Step ord eq (.copyAssign i j) S' ∧ S.Exact comp (.copyAssign i j) S' ∧ S.Ordered comp (.copyAssign i j)) ∧
              HInv hA b E ord (T + (BOp.copyAssign (α := α) i j).weight) ((BOp.copyAssign (α := α) i j).sizes ns) c' S' x) (fun r => by
              refine Triple.exists fun g' => Triple.and fun l1 => Triple.and fun l2 => Triple.and fun l3 => Triple.and fun l4 => Triple.pure _ (fun x hp => ?_)
              rw [← l1] at l4
              rw [TPool.perm ((hown_perm hm).symm.append_left _)] at hp
              refine ⟨{ S with xs := S.xs.set i o.xs }, ⟨by simp only [Bags.Step, h3, k3, hij, if_false], trivial, fun _ => trivial⟩, ?_⟩
              exact HInv.set (g' := g') hok (Nat.le_add_right _ _) h1 ⟨l2, by rw [l4]; omega, by rw [l3]; simp only [BOp.weight]; omega, by rw [l3]; exact ho.ord⟩ hp hv hx hn
                rfl rfl (by rw [l1]) (by rw [l3]) (by simp only [BOp.sizes, h4, k4, hij, if_false, l3]) hs)
          simp only [BHeap.copy, bind_assoc, pure_bind] at key2
          exact key2
  | moveAssign i j =>
    simp only [BHeaps.step, BHeaps.moveAssign]
    rcases HInv.get hv hx hn i with ⟨h1, h2, h3, h4⟩ | ⟨g, h1, h1', h2, h3, h4⟩
    · simp only [h2]
      exact skip (by simp only [BOp.sizes, h4]) ⟨by simp only [Bags.Step, h3], trivial, fun _ => trivial⟩
    · rcases HInv.get hv hx hn j with ⟨k1, k2, k3, k4⟩ | ⟨o, k1, k1', k2, k3, k4⟩
      · simp only [h2, k2]
        exact skip (by simp only [BOp.sizes, h4, k4]) ⟨by simp only [Bags.Step, h3, k3], trivial, fun _ => trivial⟩
      · simp only [h2, k2]
        rw [TPool.perm (hown_perm h1)]
        refine Triple.bind (BHeap.destroy_spec hE (hok g h1').ok (hC g h1')) (fun y => Triple.pure _ (fun x hp => ?_))
        refine ⟨{ S with xs := (S.xs.set i o.xs).set j [] }, ⟨by simp only [Bags.Step, h3, k3], trivial, fun _ => trivial⟩,
          (Γ.set i o).set j HGhost.empty, ?_, ?_, ?_, hs, ?_, ?_⟩
        · simp [hv, List.map_set, HGhost.empty]
        · simp [hx, List.map_set, HGhost.empty]
        · simp only [BOp.sizes, h4, k4]; simp [hn, List.map_set, HGhost.empty]
        · intro g1 hg1
          rcases List.mem_or_eq_of_mem_set hg1 with h | h
          · rcases List.mem_or_eq_of_mem_set h with h | h
            · exact (hok g1 h).mono (Nat.le_add_right _ _)
            · rw [h]; exact (hok o k1').mono (Nat.le_add_right _ _)
          · rw [h]; exact HGhost.empty_fine
        · have hb : ∃ y, (Γ.set i o)[j]? = some y := by
            by_cases hij : i = j
            · subst hij
              exact ⟨o, List.getElem?_set_self (by exact (List.getElem?_eq_some_iff.1 h1).1)⟩
            · rw [List.getElem?_set_ne hij]; exact ⟨o, k1⟩
          obtain ⟨y, hy⟩ := hb
          have e : (((Γ.set i o).set j HGhost.empty).flatMap HGhost.own).Perm ((Γ.eraseIdx i).flatMap HGhost.own) := by
            refine (hown_set hy HGhost.empty).trans ?_
            show (((Γ.set i o).eraseIdx j).flatMap HGhost.own).Perm _
            by_cases hij : i = j
            · subst hij; rw [List.eraseIdx_set_eq]
            · have hyo : y = o := by
                rw [List.getElem?_set_ne hij, k1] at hy; exact (Option.some.inj hy).symm
              subst hyo
              have p1 : (y.own ++ ((Γ.set i y).eraseIdx j).flatMap HGhost.own).Perm (y.own ++ (Γ.eraseIdx i).flatMap HGhost.own) :=
                (hown_perm hy).symm.trans (hown_set h1 y)
              exact (List.perm_append_left_iff _).1 p1
          rw [TPool.perm e]; exact hp
  | destroy i =>
    rcases HInv.get hv hx hn i with ⟨h1, h2, h3, h4⟩ | ⟨g, h1, h1', h2, h3, h4⟩
    · simp only [BHeaps.step, h2]
      refine skip (List.eraseIdx_of_length_le (by simpa using h4)) ⟨?_, trivial, fun _ => trivial⟩
      show S = { S with xs := S.xs.eraseIdx i }
      rw [List.eraseIdx_of_length_le (by simpa using h3)]
    · simp only [BHeaps.step, h2]
      rw [TPool.perm (hown_perm h1)]
      refine Triple.bind (BHeap.destroy_spec hE (hok g h1').ok (hC g h1')) (fun y => Triple.pure _ (fun x hp => ?_))
      refine ⟨_, ⟨rfl, trivial, fun _ => trivial⟩, Γ.eraseIdx i, ?_, ?_, ?_, hs, ?_, hp⟩
      · rw [hv]; exact Linear.map_eraseIdx' _ _ _
      · rw [hx]; exact Linear.map_eraseIdx' _ _ _
      · simp only [BOp.sizes]; rw [hn]; exact Linear.map_eraseIdx' _ _ _
      · intro g1 hg1
        exact (hok g1 (List.mem_of_mem_eraseIdx hg1)).mono (Nat.le_add_right _ _)
  | reserve i n =>
    rcases HInv.get hv hx hn i with ⟨h1, h2, h3, h4⟩ | ⟨g, h1, h1', h2, h3, h4⟩
    · simp only [BHeaps.step, h2]
      exact skip rfl ⟨rfl, trivial, fun _ => trivial⟩
    · have hg := hok g h1'
      simp only [BHeaps.step, h2]
      rw [TPool.perm (hown_perm h1)]
      simp only [BOp.weight] at hN
      refine Triple.bind (BHeap.reserve_spec hE hg.ok (hC g h1') n
        (fun hlt => hF _ (fun h => by omega) (by omega)) (fun _ => hW _ (by omega))) (fun r => ?_)
      refine Triple.exists fun g' => Triple.and fun k1 => Triple.and fun k2 => Triple.and fun k3 => Triple.and fun k4 => Triple.pure _ (fun x hp => ?_)
      rw [← k1] at k4
      have hcl := hg.cap_le
      have hsl := hg.size_le
      refine ⟨S, ⟨rfl, trivial, fun _ => trivial⟩, ?_⟩
      exact HInv.set (g' := g') hok (Nat.le_add_right _ _) h1 ⟨k2, by simp only [BOp.weight]; omega, by rw [k3]; omega, by rw [k3]; exact hg.ord⟩ hp hv hx hn
        rfl rfl (by rw [k1]) (by rw [k3, set_same h3]) (by rw [k3, set_same h4]; rfl) hs
  | insert i v =>
    rcases HInv.get hv hx hn i with ⟨h1, h2, h3, h4⟩ | ⟨g, h1, h1', h2, h3, h4⟩
    · simp only [BHeaps.step, h2]
      exact skip (by simp only [BOp.sizes, h4]) ⟨by simp only [Bags.Step, h3], fun _ h => (by rw [h3] at h; cases h), fun _ _ h => (by rw [h3] at h; cases h)⟩
    · have hg := hok g h1'
      simp only [BHeaps.step, h2]
      rw [TPool.perm (hown_perm h1)]
      simp only [BOp.weight] at hN
      have hcap := hg.ok.cap
      have hcl := hg.cap_le
      have hsl := hg.size_le
      refine Triple.bind (BHeap.insert_exact hE hg.ok (hC g h1') (.inl (HArg.is_val v))
        (fun hlt => hF _ (fun h => by omega) (by omega)) (fun _ => hW _ (by omega))) (fun r => ?_)
      refine Triple.exists fun g' => Triple.and fun k1 => Triple.and fun k2 => Triple.and fun k3 => Triple.and fun k4 => Triple.and fun k5 => Triple.and fun k6 => ?_
      obtain ⟨k, hk, hr⟩ := k4
      rw [← k1] at k6
      have hpos := k2.pos (Nat.lt_of_le_of_lt (Nat.zero_le _) (List.getElem?_eq_some_iff.1 hk).1)
      have hgr := hgrown_le (by omega) hcl hsl
      rw [HGhost.own_pos hpos, hr]
      refine Triple.bind (triple_read hE (live_get hk) rfl) (fun y => Triple.and fun hy => Triple.pure _ (fun x hp => ?_))
      replace hy : y = v := hy
      replace hp : TPool hA b E r.2.1 r.2.2.1 ([(g'.h.beg, live g'.xs ++ g'.rest)] ++ (Γ.eraseIdx i).flatMap HGhost.own) x := hp
      rw [← HGhost.own_pos hpos] at hp
      refine ⟨{ xs := S.xs.set i g'.xs, seen := S.seen ++ [.elem v] }, ⟨by simp only [Bags.Step, h3]; exact ⟨_, k3, rfl⟩, fun ys h => (by rw [h3] at h; rw [← Option.some.inj h, ← k5.2]),
        fun hw ys h ho => by rw [h3] at h; rw [← Option.some.inj h] at ho ⊢; rw [← k5.2]; exact k5.1 hw ho⟩, ?_⟩
      exact HInv.set (g' := g') hok (Nat.le_add_right _ _) h1 ⟨k2, by rw [k6]; exact hgr, by rw [k3.length_eq, List.length_cons]; simp only [BOp.weight]; omega,
        hord2 k5.1 hg.ord⟩ hp hv hx hn rfl rfl (by rw [k1]) rfl (by simp only [BOp.sizes, h4]; rw [k3.length_eq]; rfl) (by rw [hy]; show c.seen ++ _ = S.seen ++ _; rw [hs])
  | insertFrom i j k =>
    rcases HInv.get hv hx hn i with ⟨h1, h2, h3, h4⟩ | ⟨g, h1, h1', h2, h3, h4⟩
    · simp only [BHeaps.step, h2]
      exact skip (by simp only [BOp.sizes, h4]) ⟨by simp only [Bags.Step, h3], fun _ _ _ h => (by rw [h3] at h; cases h), fun _ _ _ _ h => by rw [h3] at h; cases h⟩
    · rcases HInv.get hv hx hn j with ⟨l1, l2, l3, l4⟩ | ⟨u, l1, l1', l2, l3, l4⟩
      · simp only [BHeaps.step, h2, l2]
        exact skip (by simp only [BOp.sizes, h4, l4]) ⟨by simp only [Bags.Step, h3, l3], fun _ _ _ _ h => (by rw [l3] at h; cases h), fun _ _ _ _ _ h => by rw [l3] at h; cases h⟩
      · have hu := hok u l1'
        simp only [BHeaps.step, h2, l2, hu.ok.size]
        by_cases hc : i ≠ j ∧ k < u.xs.length
        · rw [if_pos hc]
          have hk : u.xs[k]? = some u.xs[k] := List.getElem?_eq_getElem hc.2
          have hub := hu.ok.pos (Nat.lt_of_le_of_lt (Nat.zero_le _) hc.2)
          have hg := hok g h1'
          rw [TPool.perm (hown_perm h1)]
          simp only [BOp.weight] at hN
          have hcap := hg.ok.cap
          have hcl := hg.cap_le
          have hsl := hg.size_le
          refine Triple.bind (BHeap.insert_exact hE hg.ok (hC g h1') (.inl (HArg.is_ref hE (rest := u.rest) hk (hown_mem hc.1 l1 _ (by rw [HGhost.own_pos hub]; simp))))
            (fun hlt => hF _ (fun h => by omega) (by omega)) (fun _ => hW _ (by omega))) (fun r => ?_)
          refine Triple.exists fun g' => Triple.and fun k1 => Triple.and fun k2 => Triple.and fun k3 => Triple.and fun k4 => Triple.and fun k5 => Triple.and fun k6 =>
            Triple.pure _ (fun x hp => ?_)
          rw [← k1] at k6
          have hgr := hgrown_le (by omega) hcl hsl
          refine ⟨{ S with xs := S.xs.set i g'.xs }, ⟨by simp only [Bags.Step, h3, l3, hk, hc.1, if_false]; exact ⟨_, k3, rfl⟩,
            fun ys us v a1 a2 a3 _ => by rw [h3] at a1; rw [l3] at a2; rw [← Option.some.inj a2, hk] at a3; rw [← Option.some.inj a1, ← Option.some.inj a3, ← k5.2],
            fun hw ys us v a1 a2 a3 _ ho => by
              rw [h3] at a1; rw [l3] at a2; rw [← Option.some.inj a2, hk] at a3; rw [← Option.some.inj a1] at ho ⊢; rw [← Option.some.inj a3, ← k5.2]; exact k5.1 hw ho⟩, ?_⟩
          exact HInv.set (g' := g') hok (Nat.le_add_right _ _) h1 ⟨k2, by rw [k6]; exact hgr, by rw [k3.length_eq, List.length_cons]; simp only [BOp.weight]; omega,
            hord2 k5.1 hg.ord⟩ hp hv hx hn rfl rfl (by rw [k1]) rfl (by simp only [BOp.sizes, h4, l4]; rw [if_pos hc, k3.length_eq]; rfl) hs
        · rw [if_neg hc]
          refine skip (by simp only [BOp.sizes, h4, l4]; rw [if_neg hc]) ⟨?_, fun ys us v a1 a2 a3 a4 => by
            rw [l3] at a2; rw [← Option.some.inj a2] at a3
            exact absurd ⟨a4, (List.getElem?_eq_some_iff.1 a3).1⟩ hc, fun _ ys us v a1 a2 a3 a4 => by
            rw [l3] at a2; rw [← Option.some.inj a2] at a3
            exact absurd ⟨a4, (List.getElem?_eq_some_iff.1 a3).1⟩ hc⟩
          simp only [Bags.Step, h3, l3]
          cases hk : u.xs[k]? with
          | none => trivial
          | some v =>
            have hij : i = j := Classical.byContradiction fun h => hc ⟨h, (List.getElem?_eq_some_iff.1 hk).1⟩
            simp only [hij, if_true]
  | pop i =>
    rcases HInv.get hv hx hn i with ⟨h1, h2, h3, h4⟩ | ⟨g, h1, h1', h2, h3, h4⟩
    · simp only [BHeaps.step, h2]
      exact skip (by simp only [BOp.sizes, h4]) ⟨by simp only [Bags.Step, h3], fun _ _ h => (by rw [h3] at h; cases h), fun _ _ _ h => by rw [h3] at h; cases h⟩
    · have hg := hok g h1'
      simp only [BHeaps.step, h2, hg.ok.size]
      by_cases hz : 0 < g.xs.length
      · rw [if_pos hz, TPool.perm (hown_perm h1)]
        obtain ⟨v, ys, hxs⟩ : ∃ v ys, g.xs = v :: ys := by
          cases hg' : g.xs with
          | nil => rw [hg'] at hz; simp at hz
          | cons v ys => exact ⟨v, ys, rfl⟩
        have h2' : 2 ≤ g.xs.length ∨ E.trivial = true := by
          rcases hpop with h | h
          · exact .inr h
          · left
            simp only [popsLast, h4, Bool.or_false] at h
            have : g.xs.length ≠ 1 := fun e => by rw [e] at h; cases h
            omega
        refine Triple.bind (BHeap.pop_exact hE hg.ok (v := v) (by rw [hxs]; rfl) h2') (fun r => ?_)
        refine Triple.and fun hr => Triple.exists fun g' => Triple.and fun k1 => Triple.and fun k2 => Triple.and fun k3 => Triple.and fun k4 => Triple.and fun k5 =>
          Triple.pure _ (fun x hp => ?_)
        rw [← k1] at k5
        have hpm : g'.xs.Perm ys := by
          rw [hxs] at k3
          exact (List.perm_cons _).1 k3.symm
        have hcl := hg.cap_le
        have hsl := hg.size_le
        have hl := k3.length_eq
        rw [List.length_cons] at hl
        refine ⟨{ xs := S.xs.set i g'.xs, seen := S.seen ++ [.elem v] }, ⟨by simp only [Bags.Step, h3, hxs]; exact ⟨hg.root hxs, _, hpm, rfl⟩,
          fun v' ys' h => by rw [h3, hxs] at h; rw [k4.2, hxs]; obtain ⟨-, rfl⟩ := List.cons.inj (Option.some.inj h); rfl,
          fun hw v' ys' h ho => by rw [h3, hxs] at h; obtain ⟨rfl, rfl⟩ := List.cons.inj (Option.some.inj h); rw [← hxs] at ho; have := k4.1 hw ho; rwa [k4.2, hxs] at this⟩, ?_⟩
        exact HInv.set (g' := g') hok (Nat.le_add_right _ _) h1 ⟨k2, by rw [k5]; omega, by omega, hord2 k4.1 hg.ord⟩ hp hv hx hn rfl rfl (by rw [k1]) rfl
          (by simp only [BOp.sizes, h4]; rw [hl]; rfl) (by rw [hr]; show c.seen ++ _ = S.seen ++ _; rw [hs])
      · rw [if_neg hz]
        have hxe : g.xs = [] := List.length_eq_zero_iff.1 (by omega)
        rw [hxe] at h3 h4
        refine skip (by simp only [BOp.sizes, h4]; exact set_same h4) ⟨by simp only [Bags.Step, h3], fun _ _ h => (by rw [h3] at h; cases h), fun _ _ _ h => by rw [h3] at h; cases h⟩
  | peek i =>
    rcases HInv.get hv hx hn i with ⟨h1, h2, h3, h4⟩ | ⟨g, h1, h1', h2, h3, h4⟩
    · simp only [BHeaps.step, h2]
      exact skip rfl ⟨by simp only [Bags.Step, h3], trivial, fun _ => trivial⟩
    · have hg := hok g h1'
      simp only [BHeaps.step, h2, hg.ok.size]
      by_cases hz : 0 < g.xs.length
      · rw [if_pos hz, TPool.perm (hown_perm h1)]
        obtain ⟨v, ys, hxs⟩ : ∃ v ys, g.xs = v :: ys := by
          cases hg' : g.xs with
          | nil => rw [hg'] at hz; simp at hz
          | cons v ys => exact ⟨v, ys, rfl⟩
        refine Triple.bind (BHeap.peek_spec hE hg.ok (v := v) (by rw [hxs]; rfl)) (fun r => Triple.and fun hr => Triple.pure _ (fun x hp => ?_))
        rw [← TPool.perm (hown_perm h1)] at hp
        refine ⟨{ S with seen := S.seen ++ [.elem v] }, ⟨by simp only [Bags.Step, h3, hxs]; exact ⟨hg.root hxs, trivial⟩, trivial, fun _ => trivial⟩, ?_⟩
        exact ⟨Γ, hv, hx, hn, by rw [hr]; show c.seen ++ _ = S.seen ++ _; rw [hs], fun g hg => (hok g hg).mono (Nat.le_add_right _ _), hp⟩
      · rw [if_neg hz]
        have hxe : g.xs = [] := List.length_eq_zero_iff.1 (by omega)
        rw [hxe] at h3
        refine skip rfl ⟨by simp only [Bags.Step, h3], trivial, fun _ => trivial⟩
  | find i v =>
    rcases HInv.get hv hx hn i with ⟨h1, h2, h3, h4⟩ | ⟨g, h1, h1', h2, h3, h4⟩
    · simp only [BHeaps.step, h2]
      exact skip rfl ⟨by simp only [Bags.Step, h3], trivial, fun _ => trivial⟩
    · have hg := hok g h1'
      simp only [BHeaps.step, h2, hg.ok.size]
      rw [TPool.perm (hown_perm h1)]
      have key : Triple (TPool hA b E c.st c.objs (g.own ++ (Γ.eraseIdx i).flatMap HGhost.own)) (BHeap.find E (fun x => eq x v) c.objs g.h.beg 0 g.xs.length)
          (fun k z => k = g.xs.findIdx (fun x => eq x v) ∧ TPool hA b E c.st c.objs (g.own ++ (Γ.eraseIdx i).flatMap HGhost.own) z) := by
        by_cases hb : g.h.beg = 0
        · rw [(hg.ok.nil hb).1]
          exact Triple.pure _ (fun z hp => ⟨rfl, hp⟩)
        · rw [HGhost.own_pos hb]
          refine (BHeap.find_spec hE (fun x => eq x v) g.xs []).post (fun k z ⟨hk, hp⟩ => ⟨?_, hp⟩)
          rw [hk]; simp
      refine Triple.bind key (fun k => Triple.and fun hk => Triple.pure _ (fun x hp => ?_))
      rw [← TPool.perm (hown_perm h1)] at hp
      refine ⟨{ S with seen := S.seen ++ [.found (g.xs.any fun x => eq x v)] }, ⟨by simp only [Bags.Step, h3], trivial, fun _ => trivial⟩, ?_⟩
      refine ⟨Γ, hv, hx, hn, ?_, fun g hg => (hok g hg).mono (Nat.le_add_right _ _), hp⟩
      show c.seen ++ _ = S.seen ++ _
      have e : decide (k ≠ g.xs.length) = g.xs.any fun x => eq x v := by
        rw [hk, Bool.eq_iff_iff, decide_eq_true_iff, List.any_eq_true]
        have := List.findIdx_le_length (xs := g.xs) (p := fun x => eq x v)
        rw [← List.findIdx_lt_length]
        omega
      rw [hs, e]
  | clear i =>
    rcases HInv.get hv hx hn i with ⟨h1, h2, h3, h4⟩ | ⟨g, h1, h1', h2, h3, h4⟩
    · simp only [BHeaps.step, h2]
      refine skip (List.set_eq_of_length_le (by simpa using h4)) ⟨?_, trivial, fun _ => trivial⟩
      show S = { S with xs := S.xs.set i [] }
      rw [List.set_eq_of_length_le (by simpa using h3)]
    · have hg := hok g h1'
      simp only [BHeaps.step, h2]
      rw [TPool.perm (hown_perm h1)]
      refine Triple.bind (BHeap.clear_spec hE hg.ok) (fun r => ?_)
      refine Triple.exists fun g' => Triple.and fun k1 => Triple.and fun k2 => Triple.and fun k3 => Triple.and fun k4 => Triple.pure _ (fun x hp => ⟨_, ⟨rfl, trivial, fun _ => trivial⟩, ?_⟩)
      rw [← k1] at k4
      exact HInv.set (g' := g') hok (Nat.le_add_right _ _) h1 ⟨k2, by rw [k4]; exact hg.cap_le, by rw [k3]; simp, fun _ => by rw [k3]; exact HeapOrd.nil⟩ hp hv hx hn
        rfl rfl (by rw [k1]) (by rw [k3]) (by rw [k3]; rfl) hs

/-- One operation. -/
theorem hstep_exact {A : Allocator} {fA : Nat → Prop} (hA : Sound A fA) (b T N : Nat) {E : Elt α} (hE : E.Ok) (comp eq : α → α → Bool) (ns : List Nat)
    (c : BHeaps A α) (S : Bags α) (op : BOp α) (hfit : ∀ n, 0 < n → n ≤ 2 * N → E.size * n < W64 ∧ fA (E.size * n))
    (h0 : op.mayBeEmpty = true → fA 0) (hN : T + op.weight ≤ N) (hpop : E.trivial = true ∨ popsLast ns [op] = false) :
    Triple (HInv hA b E comp T ns c S) (c.step E comp eq op)
      (fun c' x => ∃ S', (S.Step comp eq op S' ∧ S.Exact comp op S') ∧ HInv hA b E comp (T + op.weight) (op.sizes ns) c' S' x) :=
  (hstep_both hA b T N hE comp comp eq (.inl rfl) ns c S op hfit h0 hN hpop).post (fun _ _ ⟨S', h1, h2⟩ => ⟨S', ⟨h1.1, h1.2.1⟩, h2⟩)

theorem hstep {A : Allocator} {fA : Nat → Prop} (hA : Sound A fA) (b T N : Nat) {E : Elt α} (hE : E.Ok) (comp eq : α → α → Bool) (ns : List Nat)
    (c : BHeaps A α) (S : Bags α) (op : BOp α) (hfit : ∀ n, 0 < n → n ≤ 2 * N → E.size * n < W64 ∧ fA (E.size * n))
    (h0 : op.mayBeEmpty = true → fA 0) (hN : T + op.weight ≤ N) (hpop : E.trivial = true ∨ popsLast ns [op] = false) :
    Triple (HInv hA b E comp T ns c S) (c.step E comp eq op)
      (fun c' x => ∃ S', S.Step comp eq op S' ∧ HInv hA b E comp (T + op.weight) (op.sizes ns) c' S' x) :=
  (hstep_exact hA b T N hE comp eq ns c S op hfit h0 hN hpop).post (fun _ _ ⟨S', h1, h2⟩ => ⟨S', h1.1, h2⟩)

theorem popsLast_cons {ns : List Nat} {o : BOp α} {os : List (BOp α)} (h : popsLast ns (o :: os) = false) :
    popsLast ns [o] = false ∧ popsLast (o.sizes ns) os = false := by
  cases o <;> simp only [popsLast, Bool.or_eq_false_iff, Bool.false_or, Bool.or_false] at h ⊢ <;> first | exact h | exact ⟨trivial, h⟩

theorem hrun {A : Allocator} {fA : Nat → Prop} (hA : Sound A fA) (b N : Nat) {E : Elt α} (hE : E.Ok) (comp eq : α → α → Bool)
    (hfit : ∀ n, 0 < n → n ≤ 2 * N → E.size * n < W64 ∧ fA (E.size * n)) (ops : List (BOp α)) (h0 : (∃ o ∈ ops, o.mayBeEmpty = true) → fA 0)
    (T : Nat) (ns : List Nat) (hpop : E.trivial = true ∨ popsLast ns ops = false) (c : BHeaps A α) (S : Bags α) (hN : T + hweights ops ≤ N) :
    Triple (HInv hA b E comp T ns c S) (c.run E comp eq ops) (fun c' x => ∃ S', Bags.Run comp eq S ops S' ∧ ∃ ns', HInv hA b E comp N ns' c' S' x) := by
  induction ops generalizing T c S ns with
  | nil =>
    refine Triple.pure _ (fun x hp => ⟨S, .nil S, ns, ?_⟩)
    obtain ⟨Γ, h1, h2, h3, h4, h5, h6⟩ := hp
    exact HInv.keep h5 (by simp [hweights] at hN; omega) h1 h2 h3 h4 h6
  | cons o os ih =>
    simp only [hweights] at hN
    refine Triple.bind (hstep hA b T N hE comp eq ns c S o hfit (fun h => h0 ⟨o, by simp, h⟩) (by omega) (hpop.imp id fun h => (popsLast_cons h).1)) (fun c' => ?_)
    refine Triple.exists fun S' => Triple.and fun hstep => ?_
    refine (ih (fun ⟨o', ho, h⟩ => h0 ⟨o', by simp [ho], h⟩) (T + o.weight) (o.sizes ns) (hpop.imp id fun h => (popsLast_cons h).2) c' S' (by omega)).post (fun c'' x hx => ?_)
    obtain ⟨S'', h1, h2⟩ := hx
    exact ⟨S'', .cons hstep h1, h2⟩

theorem tpool_start {A : Allocator} {fA : Nat → Prop} {hA : Sound A fA} {b : Nat} {s : A.St} {E : Elt α} {x : Heap} (hx : hA.Inv b s [] x) :
    TPool hA b E s (fun _ => none) [] x := by
  refine ⟨[], .nil, .nil, fun p y => ⟨fun h => (by cases h), ?_⟩, ?_⟩
  · rintro ⟨q, sl, k, h, _⟩; simp at h
  · show (hA.Inv b s [] ∗ blocksV []) x
    rw [blocksV_nil, star_emp]; exact hx

theorem tpool_end {A : Allocator} {fA : Nat → Prop} {hA : Sound A fA} {b : Nat} {s : A.St} {E : Elt α} {o : Objs α} {x : Heap} (hx : TPool hA b E s o [] x) :
    (∀ p, o p = none) ∧ hA.Inv b s [] x := by
  obtain ⟨R, h1, _, h3, h4⟩ := hx
  cases h1
  refine ⟨fun p => ?_, ?_⟩
  · cases ho : o p with
    | none => rfl
    | some y =>
      obtain ⟨q, sl, k, h, _⟩ := (h3 p y).1 ho
      simp at h
  · replace h4 : (hA.Inv b s [] ∗ blocksV []) x := h4
    rwa [blocksV_nil, star_emp] at h4

theorem hplay_spec {A : Allocator} {fA : Nat → Prop} (hA : Sound A fA) (b : Nat) {E : Elt α} (hE : E.Ok) (comp eq : α → α → Bool) (ops : List (BOp α))
    (hfit : ∀ n, 0 < n → n ≤ 2 * hweights ops → E.size * n < W64 ∧ fA (E.size * n)) (h0 : (∃ o ∈ ops, o.mayBeEmpty = true) → fA 0)
    (hpop : E.trivial = true ∨ popsLast [] ops = false) (h1 : b ≠ 0) (h2 : b % 16 = 0) (h3 : b + A.objSize < W64) :
    Triple (bytes b A.objSize) (hplay E comp eq A b ops)
      (fun c x => ∃ S, Bags.Run comp eq ⟨[], []⟩ ops S ∧ ∃ ns, HInv hA b E comp (hweights ops) ns c S x) := by
  refine Triple.bind (hA.init_spec b h1 h2 h3) (fun s => ?_)
  refine (hrun hA b _ hE comp eq hfit ops h0 0 [] hpop _ ⟨[], []⟩ (by omega)).pre (fun x hx => ?_)
  exact ⟨[], rfl, rfl, rfl, rfl, fun g hg => by simp at hg, tpool_start hx⟩

theorem hdestroyAll_spec {A : Allocator} {fA : Nat → Prop} (hA : Sound A fA) (b T : Nat) {E : Elt α} (hE : E.Ok) {comp : α → α → Bool}
    (hW : ∀ n, n ≤ 2 * T → E.size * n < W64) (Γ : List (HGhost α)) (hok : ∀ g ∈ Γ, g.Fine comp T) (s : A.St) (o : Objs α) (Δ : List (Nat × Slots α)) :
    Triple (TPool hA b E s o (Γ.flatMap HGhost.own ++ Δ)) (BHeaps.destroyAll E s o (Γ.map HGhost.h)) (fun r => TPool hA b E r.1 r.2 Δ) := by
  induction Γ generalizing s o with
  | nil => exact Triple.pure _ (fun x hx => hx)
  | cons g Γ ih =>
    have hg := hok g (by simp)
    refine Triple.bind (R := fun r => TPool hA b E r.1 r.2 (Γ.flatMap HGhost.own ++ Δ)) ?_ (fun r => ih (fun g hg => hok g (by simp [hg])) r.1 r.2)
    rw [List.flatMap_cons, List.append_assoc]
    exact BHeap.destroy_spec hE hg.ok (hW _ hg.cap_le)

theorem hlife_spec {A : Allocator} {fA : Nat → Prop} (hA : Sound A fA) (b : Nat) {E : Elt α} (hE : E.Ok) (comp eq : α → α → Bool) (ops : List (BOp α))
    (hfit : ∀ n, 0 < n → n ≤ 2 * hweights ops → E.size * n < W64 ∧ fA (E.size * n)) (h0 : (∃ o ∈ ops, o.mayBeEmpty = true) → fA 0)
    (hpop : E.trivial = true ∨ popsLast [] ops = false) (h1 : b ≠ 0) (h2 : b % 16 = 0) (h3 : b + A.objSize < W64) :
    Triple (bytes b A.objSize) (hlife E comp eq A b ops) (fun o x => (∀ p, o p = none) ∧ bytes b A.objSize x) := by
  refine Triple.bind (hplay_spec hA b hE comp eq ops hfit h0 hpop h1 h2 h3) (fun c => ?_)
  refine Triple.exists fun S => Triple.and fun _ => Triple.exists fun ns => Triple.exists fun Γ => Triple.and fun hv => Triple.and fun _ => Triple.and fun _ =>
    Triple.and fun _ => Triple.and fun hok => ?_
  rw [hv]
  have hW : ∀ n, n ≤ 2 * hweights ops → E.size * n < W64 := fun n hn => by
    by_cases h : n = 0
    · subst h; rw [Nat.mul_zero]; decide
    · exact (hfit n (by omega) hn).1
  have := hdestroyAll_spec hA b _ hE hW Γ hok c.st c.objs []
  rw [List.append_nil] at this
  refine Triple.bind this (fun r => ?_)
  refine Triple.have (p := ∀ p, r.2 p = none) (fun x hx => (tpool_end hx).1) (fun hnone => ?_)
  refine Triple.bind ((hA.fini_spec b r.1).pre (fun x hx => (tpool_end hx).2)) (fun _ => ?_)
  exact Triple.pure _ (fun x hx => ⟨hnone, hx⟩)

theorem HSane.fits {t : AllocTy} {E : Elt α} {ops : List (BOp α)} (h : HSane t E ops) (hwf : t.WF) (hE : E.Ok) (plat : Plat) :
    (∀ n, 0 < n → n ≤ 2 * hweights ops → E.size * n < W64 ∧ t.fits plat (E.size * n)) ∧ ((∃ o ∈ ops, o.mayBeEmpty = true) → t.fits plat 0) := by
  have h1 := h.1
  refine ⟨fun n hn hle => ?_, fun he => ?_⟩
  · have hm : E.size * n ≤ E.size * (2 * hweights ops) := Nat.mul_le_mul_left _ hle
    have hp : 0 < E.size * n := Nat.mul_pos hE.pos hn
    exact ⟨by omega, t.fits_of_margin plat hwf _ hp (by omega)⟩
  · exact t.fits_zero plat hwf (h.2 he) 0 (by omega)

/-- the elements are in memory -/
theorem TPool.holds {A : Allocator} {fA : Nat → Prop} {hA : Sound A fA} {b : Nat} {s : A.St} {E : Elt α} (hE : E.Ok) {o : Objs α}
    {Γ : List (Nat × Slots α)} {h hf : Heap} {w : World} (hp : TPool hA b E s o Γ h) (he : w.heap = h.add hf) {q : Nat} {xs : List α} {rest : Slots α}
    (hm : (q, live xs ++ rest) ∈ Γ) : Holds E o w q xs := by
  intro k x hk
  obtain ⟨R, h1, _, h3, h1', h2', hd, rfl, _, hbl⟩ := hp
  have hl := live_get (rest := rest) hk
  refine ⟨(h3 _ _).2 ⟨q, _, k, hm, hl, rfl⟩, fun j hj => ?_⟩
  obtain ⟨bs, hb1, hb2⟩ := h1.mem hm
  have hlt := (List.getElem?_eq_some_iff.1 hl).1
  have hle : (k + 1) * E.size ≤ (live xs ++ rest).length * E.size := Nat.mul_le_mul_right _ hlt
  rw [Nat.succ_mul, ← hb2.len] at hle
  have e := blocksV_mem hbl hb1 (k * E.size + j) (by omega)
  have hdat := hb2.data _ _ hl
  have hget : (E.enc x)[j]? = bs[k * E.size + j]? := by
    replace hdat : List.take E.size (List.drop (k * E.size) bs) = E.enc x := hdat
    rw [← hdat, List.getElem?_take_of_lt hj, List.getElem?_drop]
  rw [hget, List.getElem?_eq_getElem (by omega), he, Nat.add_assoc, ← e]
  rcases hd.1 (q + (k * E.size + j)) with e' | e'
  · simp [e', e]
  · rw [e] at e'; cases e'

theorem HInv.final {A : Allocator} {fA : Nat → Prop} {hA : Sound A fA} {b T : Nat} {E : Elt α} (hE : E.Ok) {comp : α → α → Bool} {ns : List Nat}
    {c : BHeaps A α} {S : Bags α} {h hf : Heap} {w : World} (hI : HInv hA b E comp T ns c S h) (he : w.heap = h.add hf) :
    c.seen = S.seen ∧ c.hs.length = S.xs.length ∧ ∀ (i : Nat) (h : BHeap) (xs : List α), c.hs[i]? = some h → S.xs[i]? = some xs →
      h.size = xs.length ∧ h.size ≤ h.cap ∧ Holds E c.objs w h.beg xs ∧ (StrictWeak comp → HeapOrd comp xs) := by
  obtain ⟨Γ, hv, hx, hn, hs, hok, hp⟩ := hI
  refine ⟨hs, by rw [hv, hx]; simp, fun i h xs hi hi' => ?_⟩
  rcases HInv.get hv hx hn i with ⟨_, h2, _⟩ | ⟨g, h1, h1', h2, h3, _⟩
  · rw [h2] at hi; cases hi
  · rw [h2] at hi; rw [h3] at hi'
    obtain rfl := Option.some.inj hi
    obtain rfl := Option.some.inj hi'
    have hg := hok g h1'
    refine ⟨hg.ok.size, by have := hg.ok.cap; have := hg.ok.size; omega, ?_, hg.ord⟩
    by_cases hb : g.h.beg = 0
    · intro k x hk
      rw [(hg.ok.nil hb).1] at hk; simp at hk
    · exact TPool.holds hE hp he (rest := g.rest) (List.mem_flatMap.2 ⟨g, h1', by rw [HGhost.own_pos hb]; simp⟩)

/-- The state after a program. -/
theorem hplay_state (sys : Sys) (t : AllocTy) (hwf : t.WF) {A : Allocator} (hA : Sound A (t.fits sys.plat)) (hsz : A.objSize = t.size) (b : Nat)
    (w : World) (hs : Storage w b t.size) {E : Elt α} (hE : E.Ok) (comp eq : α → α → Bool) (ops : List (BOp α)) (hops : HSane t E ops)
    (hpop : E.trivial = true ∨ popsLast [] ops = false) :
    match hplay E comp eq A b ops w with
    | .ok c w' => ∃ (S : Bags α) (ns : List Nat) (h hf : Heap), Bags.Run comp eq ⟨[], []⟩ ops S ∧ Heap.disj h hf ∧ w'.heap = h.add hf ∧
        HInv hA b E comp (hweights ops) ns c S h ∧ (∀ x, hf.b x = if b ≤ x ∧ x < b + t.size then none else w.heap.b x)
    | .oom w' => w'.failed = true
    | .ub => False := by
  obtain ⟨h0, hf, hd, he, hb, hfb, hft⟩ := storage_split hs
  have hfit := hops.fits hwf hE sys.plat
  have := hplay_spec hA b hE comp eq ops hfit.1 hfit.2 hpop hs.1 hs.2.1 (by rw [hsz]; exact hs.2.2.1) w h0 hf hd he (by rw [hsz]; exact hb)
  cases hr : hplay E comp eq A b ops w with
  | oom w' => rw [hr] at this; exact this
  | ub => rw [hr] at this; exact this
  | ok c w' =>
    rw [hr] at this
    obtain ⟨⟨h', hd', he', S, hrun, ns, hI⟩, hna⟩ := this
    exact ⟨S, ns, h', hf, hrun, hd', he', hI, hfb⟩

/-- reading bytes that are there -/
theorem readBytes_at {w : World} {p : Nat} {bs : List UInt8} (h : ∀ j, j < bs.length → w.heap.b (p + j) = bs[j]?) : M.readBytes p bs.length w = .ok bs w := by
  induction bs generalizing p with
  | nil => rfl
  | cons e bs ih =>
    have h0 := h 0 (by simp)
    have h1 : M.load p w = .ok e w := by
      unfold M.load
      rw [show w.heap.b p = some e from h0]
    have h2 := ih (p := p + 1) (fun j hj => by
      have := h (j + 1) (by simp; omega)
      rw [show p + 1 + j = p + (j + 1) by omega, this]; rfl)
    show (M.load p >>= fun x => M.readBytes (p + 1) bs.length >>= fun xs => pure (x :: xs)) w = _
    rw [M.bind_apply, h1]
    show (M.readBytes (p + 1) bs.length >>= fun xs => pure (e :: xs)) w = _
    rw [M.bind_apply, h2]; rfl

/-- an element can be read, and that changes nothing -/
theorem Holds.read {E : Elt α} (hE : E.Ok) {o : Objs α} {w : World} {q k : Nat} {xs : List α} {x : α} (h : Holds E o w q xs) (hk : xs[k]? = some x) :
    E.read o (q + k * E.size) w = .ok x w := by
  obtain ⟨h1, h2⟩ := h k x hk
  have hr : M.readBytes (q + k * E.size) E.size w = .ok (E.enc x) w := by
    have := readBytes_at (w := w) (p := q + k * E.size) (bs := E.enc x) (fun j hj => h2 j (by rw [← hE.len x]; exact hj))
    rw [hE.len] at this; exact this
  unfold Elt.read Elt.at
  rw [bind_assoc, M.bind_apply, hr]
  simp only [h1, Bool.true_or, and_self, if_true, pure_bind]
  rfl

end KTL
