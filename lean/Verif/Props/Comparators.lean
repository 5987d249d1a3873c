import Verif.Containers.Comparators
import Verif.Props.BinaryHeap

/- C99: every `binary_heap` goes by its own comparator. -/
namespace KTL
variable {α κ : Type}

/-! ### Specification -/

/-- What a program with bags instead of heaps has: for each bag a comparator and the elements, and what the program has seen. -/
structure KBags (α κ : Type) where
  xs : List (κ × List α)
  seen : List (HObs α) := []

/-- The meaning of the operations. A new bag has the comparator it is constructed with; a copy has the comparator of the original, also a bag that was
constructed by moving; assignment takes the comparator over together with the elements. A bag that was moved from is empty; it still has its
comparator if another bag was constructed from it, and has a comparator that was moved from if it was assigned from. `pop` and `peek`
deliver an element that nothing in the bag comes before, according to the comparator of that bag, if it is a strict weak order. -/
def KBags.Step (K : Cmp κ α) (eq : α → α → Bool) (c : KBags α κ) (op : KOp α κ) (c' : KBags α κ) : Prop :=
  match op with
  | .new k | .newCap _ k => c' = { c with xs := c.xs ++ [(k, [])] }
  | .newList vs k => ∃ ys, ys.Perm vs ∧ c' = { c with xs := c.xs ++ [(k, ys)] }
  | .plain .new | .plain (.newCap _) => c' = { c with xs := c.xs ++ [(K.default, [])] }
  | .plain (.newList vs) => ∃ ys, ys.Perm vs ∧ c' = { c with xs := c.xs ++ [(K.default, ys)] }
  | .plain (.copy j) =>
    match c.xs[j]? with
    | some h => c' = { c with xs := c.xs ++ [h] }
    | none => c' = c
  | .plain (.move j) =>
    match c.xs[j]? with
    | some (k, ys) => c' = { c with xs := c.xs.set j (k, []) ++ [(k, ys)] }
    | none => c' = c
  | .plain (.copyAssign i j) =>
    match c.xs[i]?, c.xs[j]? with
    | some _, some h => c' = { c with xs := c.xs.set i h }
    | _, _ => c' = c
  | .plain (.moveAssign i j) =>
    match c.xs[i]?, c.xs[j]? with
    | some _, some (k, ys) =>
      if i = j then c' = { c with xs := c.xs.set i (K.selfMoved k, []) }
      else c' = { c with xs := (c.xs.set i (k, ys)).set j (K.moved k, []) }
    | _, _ => c' = c
  | .plain (.destroy i) => c' = { c with xs := c.xs.eraseIdx i }
  | .plain (.reserve _ _) => c' = c
  | .plain (.insert i v) =>
    match c.xs[i]? with
    | some (k, ys) => ∃ zs, zs.Perm (v :: ys) ∧ c' = { xs := c.xs.set i (k, zs), seen := c.seen ++ [.elem v] }
    | none => c' = c
  | .plain (.insertFrom i j n) =>
    match c.xs[i]?, c.xs[j]? with
    | some (k, ys), some (_, us) =>
      match us[n]? with
      | some v => if i = j then c' = c else ∃ zs, zs.Perm (v :: ys) ∧ c' = { c with xs := c.xs.set i (k, zs) }
      | none => c' = c
    | _, _ => c' = c
  | .plain (.pop i) =>
    match c.xs[i]? with
    | some (k, v :: ys) => (StrictWeak (K.less k) → ∀ x ∈ v :: ys, K.less k x v = false) ∧
        ∃ zs, zs.Perm ys ∧ c' = { xs := c.xs.set i (k, zs), seen := c.seen ++ [.elem v] }
    | _ => c' = c
  | .plain (.peek i) =>
    match c.xs[i]? with
    | some (k, v :: ys) => (StrictWeak (K.less k) → ∀ x ∈ v :: ys, K.less k x v = false) ∧ c' = { c with seen := c.seen ++ [.elem v] }
    | _ => c' = c
  | .plain (.find i v) =>
    match c.xs[i]? with
    | some (_, ys) => c' = { c with seen := c.seen ++ [.found (ys.any fun x => eq x v)] }
    | none => c' = c
  | .plain (.clear i) =>
    match c.xs[i]? with
    | some (k, _) => c' = { c with xs := c.xs.set i (k, []) }
    | none => c' = c

/-- `ops` can take the bags from `c` to `c'`. -/
inductive KBags.Run (K : Cmp κ α) (eq : α → α → Bool) : KBags α κ → List (KOp α κ) → KBags α κ → Prop
  | nil (c) : Run K eq c [] c
  | cons {c op c' ops c''} : c.Step K eq op c' → Run K eq c' ops c'' → Run K eq c (op :: ops) c''

/-! ### Proof -/

theorem kmap_eraseIdx {β γ : Type} (f : β → γ) (l : List β) (i : Nat) : (l.eraseIdx i).map f = (l.map f).eraseIdx i := by
  induction l generalizing i with
  | nil => rfl
  | cons a l ih => cases i with
    | zero => rfl
    | succ i => simp [ih]

/-- the bags without the comparators -/
def KBags.bags (c : KBags α κ) : Bags α := ⟨c.xs.map Prod.snd, c.seen⟩

/-- each bag is in the order of its own comparator -/
def KBags.Good (K : Cmp κ α) (c : KBags α κ) : Prop := ∀ p ∈ c.xs, StrictWeak (K.less p.1) → HeapOrd (K.less p.1) p.2

/-- the comparator of the proofs about heaps that are in no common order -/
def noOrder (_ _ : α) : Bool := true

theorem noOrder_or (comp : α → α → Bool) : noOrder = comp ∨ ¬ StrictWeak (noOrder : α → α → Bool) := by
  by_cases h : Nonempty α
  · obtain ⟨a⟩ := h
    exact .inr fun h => by cases h.irrefl a
  · exact .inl (funext fun a => absurd ⟨a⟩ h)

section
variable {K : Cmp κ α} {eq : α → α → Bool} {c : KBags α κ}

theorem KBags.Good.add (h : c.Good K) {p : κ × List α} (hp : StrictWeak (K.less p.1) → HeapOrd (K.less p.1) p.2) {seen : List (HObs α)} :
    KBags.Good K ⟨c.xs ++ [p], seen⟩ := fun q hq => by
  rcases List.mem_append.1 hq with h' | h'
  · exact h q h'
  · rw [List.mem_singleton.1 h']; exact hp

theorem good_set {xs : List (κ × List α)} (h : ∀ q ∈ xs, StrictWeak (K.less q.1) → HeapOrd (K.less q.1) q.2) {i : Nat} {p : κ × List α}
    (hp : StrictWeak (K.less p.1) → HeapOrd (K.less p.1) p.2) : ∀ q ∈ xs.set i p, StrictWeak (K.less q.1) → HeapOrd (K.less q.1) q.2 := fun q hq => by
  rcases List.mem_or_eq_of_mem_set hq with h' | h'
  · exact h q h'
  · rw [h']; exact hp

theorem KBags.Good.get (h : c.Good K) {i : Nat} {p : κ × List α} (hi : c.xs[i]? = some p) : StrictWeak (K.less p.1) → HeapOrd (K.less p.1) p.2 :=
  h p (List.mem_of_getElem? hi)

theorem KBags.Good.root (h : c.Good K) {i : Nat} {k : κ} {v : α} {ys : List α} (hi : c.xs[i]? = some (k, v :: ys)) :
    StrictWeak (K.less k) → ∀ x ∈ v :: ys, K.less k x v = false := fun hs x hm => by
  obtain ⟨n, hn⟩ := List.getElem?_of_mem hm
  exact (h.get hi hs).root hs n v x rfl hn

/-- One operation, on the specification. -/
theorem kbags_step {ord : α → α → Bool} {o : KOp α κ} {B : Bags α} (hg : c.Good K) (h1 : c.bags.Step ord eq o.base B)
    (h2 : c.bags.Exact (K.less (o.comp K (c.xs.map Prod.fst))) o.base B) (h3 : c.bags.Ordered (K.less (o.comp K (c.xs.map Prod.fst))) o.base) :
    ∃ c' : KBags α κ, c.Step K eq o c' ∧ B = c'.bags ∧ o.comps K (c.xs.map Prod.fst) = c'.xs.map Prod.fst ∧ c'.Good K := by
  have hget : ∀ i : Nat, c.bags.xs[i]? = (c.xs[i]?).map Prod.snd := fun i => List.getElem?_map ..
  have hcs : ∀ i : Nat, (c.xs.map Prod.fst)[i]? = (c.xs[i]?).map Prod.fst := fun i => List.getElem?_map ..
  have hnil : ∀ k : κ, StrictWeak (K.less k) → HeapOrd (K.less k) [] := fun _ _ => HeapOrd.nil
  cases o with
  | new k => exact ⟨_, rfl, by rw [show B = _ from h1]; simp [KBags.bags], by simp [KOp.comps], hg.add (hnil k)⟩
  | newCap n k => exact ⟨_, rfl, by rw [show B = _ from h1]; simp [KBags.bags], by simp [KOp.comps], hg.add (hnil k)⟩
  | newList vs k =>
    obtain ⟨ys, hp, rfl⟩ := h1
    have e : ys = vs.foldl (heapInsert (K.less k)) [] := by simpa [KOp.comp] using List.append_cancel_left h2
    exact ⟨_, ⟨ys, hp, rfl⟩, by simp [KBags.bags], by simp [KOp.comps], hg.add (fun hw => by rw [e]; exact h3 hw)⟩
  | plain o =>
    cases o with
    | new => exact ⟨_, rfl, by rw [show B = _ from h1]; simp [KBags.bags], by simp [KOp.comps], hg.add (hnil _)⟩
    | newCap n => exact ⟨_, rfl, by rw [show B = _ from h1]; simp [KBags.bags], by simp [KOp.comps], hg.add (hnil _)⟩
    | newList vs =>
      obtain ⟨ys, hp, rfl⟩ := h1
      have e : ys = vs.foldl (heapInsert (K.less K.default)) [] := by simpa [KOp.comp] using List.append_cancel_left h2
      exact ⟨_, ⟨ys, hp, rfl⟩, by simp [KBags.bags], by simp [KOp.comps], hg.add (fun hw => by rw [e]; exact h3 hw)⟩
    | copy j =>
      simp only [KOp.base, Bags.Step, hget] at h1
      simp only [KBags.Step, KOp.comps, hcs]
      cases hj : c.xs[j]? with
      | none => rw [hj] at h1; exact ⟨c, rfl, h1, rfl, hg⟩
      | some h => rw [hj] at h1; exact ⟨_, rfl, by rw [show B = _ from h1]; simp [KBags.bags], by simp, hg.add (hg.get hj)⟩
    | move j =>
      simp only [KOp.base, Bags.Step, hget] at h1
      simp only [KBags.Step, KOp.comps, hcs]
      cases hj : c.xs[j]? with
      | none => rw [hj] at h1; exact ⟨c, rfl, h1, rfl, hg⟩
      | some h =>
        rw [hj] at h1
        refine ⟨_, rfl, by rw [show B = _ from h1]; simp [KBags.bags, List.map_set], ?_, ?_⟩
        · simp only [Option.map_some, List.map_append, List.map_set, List.map_cons, List.map_nil]
          rw [set_same (by rw [hcs, hj]; rfl)]
        · exact KBags.Good.add (c := ⟨_, c.seen⟩) (fun q hq => good_set hg (hnil h.1) q hq) (hg.get hj)
    | copyAssign i j =>
      simp only [KOp.base, Bags.Step, hget] at h1
      simp only [KBags.Step, KOp.comps, hcs]
      cases hi : c.xs[i]? with
      | none => rw [hi] at h1; exact ⟨c, rfl, h1, rfl, hg⟩
      | some g =>
        cases hj : c.xs[j]? with
        | none => rw [hi, hj] at h1; exact ⟨c, rfl, h1, rfl, hg⟩
        | some h =>
          rw [hi, hj] at h1
          replace h1 : B = if i = j then c.bags else { c.bags with xs := c.bags.xs.set i h.2 } := h1
          refine ⟨_, rfl, ?_, by simp [List.map_set], fun q hq => good_set hg (hg.get hj) q hq⟩
          by_cases hij : i = j
          · subst hij
            rw [hi] at hj
            obtain rfl := Option.some.inj hj
            rw [h1, if_pos rfl, set_same hi]
          · rw [h1, if_neg hij]; simp [KBags.bags, List.map_set]
    | moveAssign i j =>
      simp only [KOp.base, Bags.Step, hget] at h1
      simp only [KBags.Step, KOp.comps, hcs]
      cases hi : c.xs[i]? with
      | none => rw [hi] at h1; exact ⟨c, rfl, h1, rfl, hg⟩
      | some g =>
        cases hj : c.xs[j]? with
        | none => rw [hi, hj] at h1; exact ⟨c, rfl, h1, rfl, hg⟩
        | some h =>
          rw [hi, hj] at h1
          replace h1 : B = { c.bags with xs := (c.bags.xs.set i h.2).set j [] } := h1
          by_cases hij : i = j
          · simp only [Option.map_some, if_pos hij]
            refine ⟨_, rfl, ?_, by simp [List.map_set], fun q hq => good_set hg (hnil _) q hq⟩
            rw [h1, ← hij]; simp [KBags.bags, List.map_set]
          · simp only [Option.map_some, if_neg hij]
            exact ⟨_, rfl, by rw [h1]; simp [KBags.bags, List.map_set], by simp [List.map_set], fun q hq => good_set (good_set hg (hg.get hj)) (hnil _) q hq⟩
    | destroy i =>
      refine ⟨_, rfl, by rw [show B = _ from h1]; simp [KBags.bags, kmap_eraseIdx], by simp [KOp.comps, kmap_eraseIdx], fun q hq => hg q ?_⟩
      exact List.mem_of_mem_eraseIdx hq
    | reserve i n => exact ⟨c, rfl, h1, rfl, hg⟩
    | insert i v =>
      simp only [KOp.base, Bags.Step, hget] at h1
      simp only [KBags.Step]
      cases hi : c.xs[i]? with
      | none => rw [hi] at h1; exact ⟨c, rfl, h1, rfl, hg⟩
      | some p =>
        obtain ⟨k, ys⟩ := p
        rw [hi] at h1
        obtain ⟨zs, hp, rfl⟩ := h1
        have hb : c.bags.xs[i]? = some ys := by rw [hget, hi]; rfl
        have hk : KOp.comp K (c.xs.map Prod.fst) (.plain (.insert i v)) = k := by
          show (c.xs.map Prod.fst).getD i K.default = k
          rw [List.getD_eq_getElem?_getD, hcs, hi]; rfl
        rw [hk] at h2 h3
        have e := h2 ys hb
        have hlt : i < c.bags.xs.length := (List.getElem?_eq_some_iff.1 hb).1
        have e' : zs = heapInsert (K.less k) ys v := by
          have := congrArg (·[i]?) e
          simpa [List.getElem?_set_self hlt] using this
        refine ⟨_, ⟨zs, hp, rfl⟩, by simp [KBags.bags, List.map_set], ?_, fun q hq => good_set hg (fun hw => ?_) q hq⟩
        · show c.xs.map Prod.fst = (c.xs.set i (k, zs)).map Prod.fst
          rw [List.map_set, set_same (by rw [hcs, hi]; rfl)]
        · rw [e']; exact h3 hw ys hb (hg.get hi hw)
    | insertFrom i j n =>
      simp only [KOp.base, Bags.Step, hget] at h1
      simp only [KBags.Step]
      cases hi : c.xs[i]? with
      | none => rw [hi] at h1; exact ⟨c, rfl, h1, rfl, hg⟩
      | some p =>
        obtain ⟨k, ys⟩ := p
        cases hj : c.xs[j]? with
        | none => rw [hi, hj] at h1; exact ⟨c, rfl, h1, rfl, hg⟩
        | some q =>
          obtain ⟨k', us⟩ := q
          rw [hi, hj] at h1
          simp only [Option.map_some] at h1
          simp only []
          cases hn : us[n]? with
          | none => rw [hn] at h1; exact ⟨c, rfl, h1, rfl, hg⟩
          | some v =>
            rw [hn] at h1
            simp only []
            by_cases hij : i = j
            · simp only [if_pos hij] at h1 ⊢
              exact ⟨c, rfl, h1, rfl, hg⟩
            · simp only [if_neg hij] at h1 ⊢
              obtain ⟨zs, hp, rfl⟩ := h1
              have hb : c.bags.xs[i]? = some ys := by rw [hget, hi]; rfl
              have hb' : c.bags.xs[j]? = some us := by rw [hget, hj]; rfl
              have hk : KOp.comp K (c.xs.map Prod.fst) (.plain (.insertFrom i j n)) = k := by
                show (c.xs.map Prod.fst).getD i K.default = k
                rw [List.getD_eq_getElem?_getD, hcs, hi]; rfl
              rw [hk] at h2 h3
              have e := h2 ys us v hb hb' hn hij
              have hlt : i < c.bags.xs.length := (List.getElem?_eq_some_iff.1 hb).1
              have e' : zs = heapInsert (K.less k) ys v := by
                have := congrArg (·[i]?) e
                simpa [List.getElem?_set_self hlt] using this
              refine ⟨_, ⟨zs, hp, rfl⟩, by simp [KBags.bags, List.map_set], ?_, fun q hq => good_set hg (fun hw => ?_) q hq⟩
              · show c.xs.map Prod.fst = (c.xs.set i (k, zs)).map Prod.fst
                rw [List.map_set, set_same (by rw [hcs, hi]; rfl)]
              · rw [e']; exact h3 hw ys us v hb hb' hn hij (hg.get hi hw)
    | pop i =>
      simp only [KOp.base, Bags.Step, hget] at h1
      simp only [KBags.Step]
      cases hi : c.xs[i]? with
      | none => rw [hi] at h1; exact ⟨c, rfl, h1, rfl, hg⟩
      | some p =>
        obtain ⟨k, us⟩ := p
        cases us with
        | nil => rw [hi] at h1; exact ⟨c, rfl, h1, rfl, hg⟩
        | cons v ys =>
          rw [hi] at h1
          obtain ⟨-, zs, hp, rfl⟩ := h1
          have hb : c.bags.xs[i]? = some (v :: ys) := by rw [hget, hi]; rfl
          have hk : KOp.comp K (c.xs.map Prod.fst) (.plain (.pop i)) = k := by
            show (c.xs.map Prod.fst).getD i K.default = k
            rw [List.getD_eq_getElem?_getD, hcs, hi]; rfl
          rw [hk] at h2 h3
          have e := h2 v ys hb
          have hlt : i < c.bags.xs.length := (List.getElem?_eq_some_iff.1 hb).1
          have e' : zs = heapPop (K.less k) ys := by
            have := congrArg (·[i]?) e
            simpa [List.getElem?_set_self hlt] using this
          refine ⟨_, ⟨hg.root hi, zs, hp, rfl⟩, by simp [KBags.bags, List.map_set], ?_, fun q hq => good_set hg (fun hw => ?_) q hq⟩
          · show c.xs.map Prod.fst = (c.xs.set i (k, zs)).map Prod.fst
            rw [List.map_set, set_same (by rw [hcs, hi]; rfl)]
          · rw [e']; exact h3 hw v ys hb (hg.get hi hw)
    | peek i =>
      simp only [KOp.base, Bags.Step, hget] at h1
      simp only [KBags.Step]
      cases hi : c.xs[i]? with
      | none => rw [hi] at h1; exact ⟨c, rfl, h1, rfl, hg⟩
      | some p =>
        obtain ⟨k, us⟩ := p
        cases us with
        | nil => rw [hi] at h1; exact ⟨c, rfl, h1, rfl, hg⟩
        | cons v ys => rw [hi] at h1; exact ⟨_, ⟨hg.root hi, rfl⟩, h1.2, rfl, hg⟩
    | find i v =>
      simp only [KOp.base, Bags.Step, hget] at h1
      simp only [KBags.Step]
      cases hi : c.xs[i]? with
      | none => rw [hi] at h1; exact ⟨c, rfl, h1, rfl, hg⟩
      | some p => rw [hi] at h1; exact ⟨_, rfl, h1, rfl, hg⟩
    | clear i =>
      simp only [KBags.Step]
      replace h1 : B = { c.bags with xs := c.bags.xs.set i [] } := h1
      cases hi : c.xs[i]? with
      | none =>
        refine ⟨c, rfl, ?_, rfl, hg⟩
        rw [h1, List.set_eq_of_length_le (by simpa [KBags.bags] using hi)]
      | some p =>
        obtain ⟨k, us⟩ := p
        refine ⟨_, rfl, by rw [h1]; simp [KBags.bags, List.map_set], ?_, fun q hq => good_set hg (hnil k) q hq⟩
        show c.xs.map Prod.fst = (c.xs.set i (k, [])).map Prod.fst
        rw [List.map_set, set_same (by rw [hcs, hi]; rfl)]
end

/-- the invariant of a program -/
def KInv {A : Allocator} {fA : Nat → Prop} (hA : Sound A fA) (b : Nat) (E : Elt α) (K : Cmp κ α) (T : Nat) (ns : List Nat)
    (c : KHeaps A α κ) (S : KBags α κ) : HProp := fun x =>
  c.cs = S.xs.map Prod.fst ∧ S.Good K ∧ HInv hA b E noOrder T ns c.base S.bags x

theorem kstep {A : Allocator} {fA : Nat → Prop} (hA : Sound A fA) (b T N : Nat) {E : Elt α} (hE : E.Ok) (K : Cmp κ α) (eq : α → α → Bool)
    (ns : List Nat) (c : KHeaps A α κ) (S : KBags α κ) (op : KOp α κ) (hfit : ∀ n, 0 < n → n ≤ 2 * N → E.size * n < W64 ∧ fA (E.size * n))
    (h0 : op.base.mayBeEmpty = true → fA 0) (hN : T + op.base.weight ≤ N) (hpop : E.trivial = true ∨ popsLast ns [op.base] = false) :
    Triple (KInv hA b E K T ns c S) (c.step E K eq op)
      (fun c' x => ∃ S', S.Step K eq op S' ∧ KInv hA b E K (T + op.base.weight) (op.base.sizes ns) c' S' x) := by
  refine Triple.and fun hcs => Triple.and fun hg => ?_
  refine Triple.bind (hstep_both hA b T N hE (K.less (op.comp K c.cs)) noOrder eq (noOrder_or _) ns c.base S.bags op.base hfit h0 hN hpop) (fun c' => ?_)
  refine Triple.exists fun B => Triple.and fun h => Triple.pure _ (fun x hp => ?_)
  obtain ⟨h1, h2, h3⟩ := h
  rw [hcs] at h2 h3
  obtain ⟨S', k1, rfl, k3, k4⟩ := kbags_step hg h1 h2 h3
  exact ⟨S', k1, by rw [hcs]; exact k3, k4, hp⟩

theorem krun {A : Allocator} {fA : Nat → Prop} (hA : Sound A fA) (b N : Nat) {E : Elt α} (hE : E.Ok) (K : Cmp κ α) (eq : α → α → Bool)
    (hfit : ∀ n, 0 < n → n ≤ 2 * N → E.size * n < W64 ∧ fA (E.size * n)) (ops : List (KOp α κ))
    (h0 : (∃ o ∈ ops.map KOp.base, o.mayBeEmpty = true) → fA 0) (T : Nat) (ns : List Nat)
    (hpop : E.trivial = true ∨ popsLast ns (ops.map KOp.base) = false) (c : KHeaps A α κ) (S : KBags α κ) (hN : T + hweights (ops.map KOp.base) ≤ N) :
    Triple (KInv hA b E K T ns c S) (c.run E K eq ops) (fun c' x => ∃ S', KBags.Run K eq S ops S' ∧ ∃ ns', KInv hA b E K N ns' c' S' x) := by
  induction ops generalizing T c S ns with
  | nil =>
    refine Triple.pure _ (fun x hp => ⟨S, .nil S, ns, ?_⟩)
    obtain ⟨k1, k2, Γ, h1, h2, h3, h4, h5, h6⟩ := hp
    exact ⟨k1, k2, HInv.keep h5 (by simp [hweights] at hN; omega) h1 h2 h3 h4 h6⟩
  | cons o os ih =>
    simp only [List.map_cons, hweights] at hN hpop
    refine Triple.bind (kstep hA b T N hE K eq ns c S o hfit (fun h => h0 ⟨o.base, by simp, h⟩) (by omega) (hpop.imp id fun h => (popsLast_cons h).1)) (fun c' => ?_)
    refine Triple.exists fun S' => Triple.and fun hstep => ?_
    refine (ih (fun ⟨o', ho, h⟩ => h0 ⟨o', by rw [List.map_cons]; exact List.mem_cons_of_mem _ ho, h⟩) (T + o.base.weight) (o.base.sizes ns)
      (hpop.imp id fun h => (popsLast_cons h).2) c' S' (by omega)).post (fun c'' x hx => ?_)
    obtain ⟨S'', h1, h2⟩ := hx
    exact ⟨S'', .cons hstep h1, h2⟩

theorem kplay_spec {A : Allocator} {fA : Nat → Prop} (hA : Sound A fA) (b : Nat) {E : Elt α} (hE : E.Ok) (K : Cmp κ α) (eq : α → α → Bool)
    (ops : List (KOp α κ)) (hfit : ∀ n, 0 < n → n ≤ 2 * hweights (ops.map KOp.base) → E.size * n < W64 ∧ fA (E.size * n))
    (h0 : (∃ o ∈ ops.map KOp.base, o.mayBeEmpty = true) → fA 0)
    (hpop : E.trivial = true ∨ popsLast [] (ops.map KOp.base) = false) (h1 : b ≠ 0) (h2 : b % 16 = 0) (h3 : b + A.objSize < W64) :
    Triple (bytes b A.objSize) (kplay E K eq A b ops)
      (fun c x => ∃ S, KBags.Run K eq ⟨[], []⟩ ops S ∧ ∃ ns, KInv hA b E K (hweights (ops.map KOp.base)) ns c S x) := by
  refine Triple.bind (hA.init_spec b h1 h2 h3) (fun s => ?_)
  refine (krun hA b _ hE K eq hfit ops h0 0 [] hpop _ ⟨[], []⟩ (by omega)).pre (fun x hx => ?_)
  exact ⟨rfl, fun _ h => by simp at h, [], rfl, rfl, rfl, rfl, fun g hg => by simp at hg, tpool_start hx⟩

theorem klife_spec {A : Allocator} {fA : Nat → Prop} (hA : Sound A fA) (b : Nat) {E : Elt α} (hE : E.Ok) (K : Cmp κ α) (eq : α → α → Bool)
    (ops : List (KOp α κ)) (hfit : ∀ n, 0 < n → n ≤ 2 * hweights (ops.map KOp.base) → E.size * n < W64 ∧ fA (E.size * n))
    (h0 : (∃ o ∈ ops.map KOp.base, o.mayBeEmpty = true) → fA 0)
    (hpop : E.trivial = true ∨ popsLast [] (ops.map KOp.base) = false) (h1 : b ≠ 0) (h2 : b % 16 = 0) (h3 : b + A.objSize < W64) :
    Triple (bytes b A.objSize) (klife E K eq A b ops) (fun o x => (∀ p, o p = none) ∧ bytes b A.objSize x) := by
  refine Triple.bind (kplay_spec hA b hE K eq ops hfit h0 hpop h1 h2 h3) (fun c => ?_)
  refine Triple.exists fun S => Triple.and fun _ => Triple.exists fun ns => Triple.and fun _ => Triple.and fun _ => Triple.exists fun Γ => Triple.and fun hv =>
    Triple.and fun _ => Triple.and fun _ => Triple.and fun _ => Triple.and fun hok => ?_
  rw [hv]
  have hW : ∀ n, n ≤ 2 * hweights (ops.map KOp.base) → E.size * n < W64 := fun n hn => by
    by_cases h : n = 0
    · subst h; rw [Nat.mul_zero]; decide
    · exact (hfit n (by omega) hn).1
  have := hdestroyAll_spec hA b _ hE hW Γ hok c.base.st c.base.objs []
  rw [List.append_nil] at this
  refine Triple.bind this (fun r => ?_)
  refine Triple.have (p := ∀ p, r.2 p = none) (fun x hx => (tpool_end hx).1) (fun hnone => ?_)
  refine Triple.bind ((hA.fini_spec b r.1).pre (fun x hx => (tpool_end hx).2)) (fun _ => ?_)
  exact Triple.pure _ (fun x hx => ⟨hnone, hx⟩)

/-! ### The properties -/

/-- **C99.** A program with any number of heaps, each with its own comparator object, over any composition of allocators: there is no
undefined behaviour; every heap holds the elements of a bag, and `pop` and `peek` deliver one that comes first according to the comparator of
that very heap, which it was constructed with, or has taken over by copying, moving or assignment — whatever comparators other heaps have or
had. (`hpop`: see `C56_false`.) -/
theorem C99_own_comparator (sys : Sys) (t : AllocTy) (hwf : t.WF) (b : Nat) (w : World) (hs : Storage w b t.size)
    (E : Elt α) (hE : E.Ok) (K : Cmp κ α) (eq : α → α → Bool) (ops : List (KOp α κ)) (hops : HSane t E (ops.map KOp.base))
    (hpop : E.trivial = true ∨ popsLast [] (ops.map KOp.base) = false) :
    match kplay E K eq (t.denote sys) b ops w with
    | .ok c w' => ∃ S, KBags.Run K eq ⟨[], []⟩ ops S ∧ c.base.seen = S.seen ∧ c.base.hs.length = S.xs.length ∧ c.cs = S.xs.map Prod.fst ∧
        ∀ (i : Nat) (h : BHeap) (k : κ) (xs : List α), c.base.hs[i]? = some h → S.xs[i]? = some (k, xs) →
          h.size = xs.length ∧ h.size ≤ h.cap ∧ Holds E c.base.objs w' h.beg xs
    | .oom w' => w'.failed = true
    | .ub => False := by
  obtain ⟨h0, hf, hd, he, hb, hfb, hft⟩ := storage_split hs
  have hfit := hops.fits hwf hE sys.plat
  have hsz := t.objSize_eq sys
  have := kplay_spec (t.sound sys hwf) b hE K eq ops hfit.1 hfit.2 hpop hs.1 hs.2.1 (by rw [hsz]; exact hs.2.2.1) w h0 hf hd he (by rw [hsz]; exact hb)
  cases hr : kplay E K eq (t.denote sys) b ops w with
  | oom w' => rw [hr] at this; exact this
  | ub => rw [hr] at this; exact this
  | ok c w' =>
    rw [hr] at this
    obtain ⟨⟨h', hd', he', S, hrun, ns, hcs, hg, hI⟩, hna⟩ := this
    obtain ⟨k1, k2, k3⟩ := hI.final hE he'
    refine ⟨S, hrun, k1, by rw [k2]; simp [KBags.bags], hcs, fun i h k xs hi hx => ?_⟩
    obtain ⟨l1, l2, l3, _⟩ := k3 i h xs hi (by simp [KBags.bags, hx])
    exact ⟨l1, l2, l3⟩

/-- popping `m` times, on the specification -/
theorem KBags.Run.pops {K : Cmp κ α} {eq : α → α → Bool} {k : κ} (hc : StrictWeak (K.less k)) {i m : Nat} {c c' : KBags α κ} {xs : List α}
    (h : KBags.Run K eq c (List.replicate m (.plain (.pop i))) c') (hi : c.xs[i]? = some (k, xs)) (hm : m ≤ xs.length) :
    ∃ vs rest : List α, c'.seen = c.seen ++ vs.map .elem ∧ vs.length = m ∧ (vs ++ rest).Perm xs ∧
      vs.Pairwise (fun x y => K.less k y x = false) ∧ ∀ v ∈ vs, ∀ r ∈ rest, K.less k r v = false := by
  induction m generalizing c xs with
  | zero =>
    cases h
    exact ⟨[], xs, by simp, rfl, .refl _, .nil, by simp⟩
  | succ m ih =>
    rw [List.replicate_succ] at h
    cases h with
    | cons h1 h2 =>
      cases xs with
      | nil => simp at hm
      | cons v ys =>
        simp only [KBags.Step, hi] at h1
        obtain ⟨hmin, zs, hp, rfl⟩ := h1
        have hlt : i < c.xs.length := (List.getElem?_eq_some_iff.1 hi).1
        obtain ⟨vs, rest, k1, k2, k3, k4, k5⟩ := ih h2 (xs := zs) (by simp [List.getElem?_set_self hlt]) (by rw [hp.length_eq]; simpa using hm)
        have hmem : ∀ x ∈ vs ++ rest, K.less k x v = false := fun x hx => hmin hc x (List.mem_cons_of_mem _ (hp.subset (k3.subset hx)))
        refine ⟨v :: vs, rest, ?_, by simp [k2], ?_, ?_, ?_⟩
        · rw [k1]; simp
        · exact ((k3.trans hp).cons v)
        · exact List.pairwise_cons.2 ⟨fun x hx => hmem x (by simp [hx]), k4⟩
        · intro u hu r hr
          rcases List.mem_cons.1 hu with rfl | hu
          · exact hmem r (by simp [hr])
          · exact k5 u hu r hr

theorem KBags.Run.split {K : Cmp κ α} {eq : α → α → Bool} {c c' : KBags α κ} {l1 l2 : List (KOp α κ)} (h : KBags.Run K eq c (l1 ++ l2) c') :
    ∃ d, KBags.Run K eq c l1 d ∧ KBags.Run K eq d l2 c' := by
  induction l1 generalizing c with
  | nil => exact ⟨c, .nil c, h⟩
  | cons o l1 ih =>
    cases h with
    | cons h1 h2 => obtain ⟨d, k1, k2⟩ := ih h2; exact ⟨d, .cons h1 k1, k2⟩

/-- **C99, the order of delivery.** After any program `ops`, popping `m` elements off a heap delivers them sorted by the comparator `k` of that heap,
and what is left comes after them. -/
theorem C99_popping_sorts (sys : Sys) (t : AllocTy) (hwf : t.WF) (b : Nat) (w : World) (hs : Storage w b t.size)
    (E : Elt α) (hE : E.Ok) (K : Cmp κ α) (eq : α → α → Bool) (ops : List (KOp α κ)) (i m : Nat)
    (hops : HSane t E ((ops ++ List.replicate m (KOp.plain (.pop i))).map KOp.base))
    (hpop : E.trivial = true ∨ popsLast [] ((ops ++ List.replicate m (KOp.plain (.pop i))).map KOp.base) = false)
    (c : KHeaps (t.denote sys) α κ) (w' : World) (hrun : kplay E K eq (t.denote sys) b (ops ++ List.replicate m (.plain (.pop i))) w = .ok c w') :
    ∃ S, KBags.Run K eq ⟨[], []⟩ ops S ∧ ∀ k xs, S.xs[i]? = some (k, xs) → m ≤ xs.length → StrictWeak (K.less k) →
      c.cs[i]? = some k ∧
      ∃ vs rest : List α, c.base.seen = S.seen ++ vs.map .elem ∧ vs.length = m ∧ (vs ++ rest).Perm xs ∧
        vs.Pairwise (fun x y => K.less k y x = false) ∧ ∀ v ∈ vs, ∀ r ∈ rest, K.less k r v = false := by
  have := C99_own_comparator sys t hwf b w hs E hE K eq _ hops hpop
  rw [hrun] at this
  obtain ⟨S', h1, h2, _, h4, _⟩ := this
  obtain ⟨S, k1, k2⟩ := h1.split
  refine ⟨S, k1, fun k xs hi hm hw => ⟨?_, by rw [h2]; exact k2.pops hw hi hm⟩⟩
  rw [h4]
  have keep : ∀ (m : Nat) (A B : KBags α κ), KBags.Run K eq A (List.replicate m (.plain (.pop i))) B → B.xs.map Prod.fst = A.xs.map Prod.fst := by
    intro m
    induction m with
    | zero => intro A B h; cases h; rfl
    | succ m ih =>
      intro A B h
      rw [List.replicate_succ] at h
      cases h with
      | cons h1 h2 =>
        rw [ih _ _ h2]
        simp only [KBags.Step] at h1
        split at h1
        · rename_i k' v ys hA
          obtain ⟨_, zs, _, rfl⟩ := h1
          rw [List.map_set]
          exact set_same (by rw [List.getElem?_map, hA]; rfl)
        · rw [h1]
  rw [keep _ _ _ k2, List.getElem?_map, hi]; rfl

/-- **C99, the end.** Over the allocator with a ledger of sizes (C43): when the heaps have been destroyed, no object is left and memory is as before, up to the
contents of the allocator object. -/
theorem C99_no_leak (sys : Sys) (t : AllocTy) (hwf : t.WF) (b : Nat) (w : World) (hs : Storage w b t.size)
    (E : Elt α) (hE : E.Ok) (K : Cmp κ α) (eq : α → α → Bool) (ops : List (KOp α κ)) (hops : HSane t E (ops.map KOp.base))
    (hpop : E.trivial = true ∨ popsLast [] (ops.map KOp.base) = false) :
    match klife E K eq (strict (t.denote sys)) b ops w with
    | .ok o w' => (∀ p, o p = none) ∧ (∀ x, ¬ (b ≤ x ∧ x < b + t.size) → w'.heap.b x = w.heap.b x) ∧
        (∀ x, b ≤ x → x < b + t.size → (w'.heap.b x).isSome = true) ∧ ∀ a, w'.heap.t a = w.heap.t a
    | .oom w' => w'.failed = true
    | .ub => False := by
  obtain ⟨h0, hf, hd, he, hb, hfb, hft⟩ := storage_split hs
  have hfit := hops.fits hwf hE sys.plat
  have hsz : (strict (t.denote sys)).objSize = t.size := t.objSize_eq sys
  have := klife_spec (strict_sound (t.sound sys hwf)) b hE K eq ops hfit.1 hfit.2 hpop hs.1 hs.2.1 (by rw [hsz]; exact hs.2.2.1) w h0 hf hd he
    (by rw [hsz]; exact hb)
  cases hp : klife E K eq (strict (t.denote sys)) b ops w with
  | oom w' => rw [hp] at this; exact this
  | ub => rw [hp] at this; exact this
  | ok o w' =>
    rw [hp] at this
    obtain ⟨⟨h', hd', he', hnone, hby⟩, hna⟩ := this
    rw [hsz] at hby
    refine ⟨hnone, fun x hx => ?_, fun x h1 h2 => ?_, fun a => ?_⟩
    · have : h'.b x = none := isSome_eq_none.1 (mt (hby.2 x).1 hx)
      rw [he']
      simp only [Heap.add, this, hfb, hx, if_false]; rfl
    · rw [he']
      exact heap_left_isSome ((hby.2 x).2 ⟨h1, h2⟩)
    · rw [he']
      simp only [Heap.add, hby.1 a, hft]; rfl

/-- **C99, one comparator.** If all comparators are alike, the heaps are those of C51 to C56. -/
theorem C99_one_comparator (E : Elt α) (K : Cmp κ α) (comp eq : α → α → Bool) (hK : ∀ k, K.less k = comp) (A : Allocator) (b : Nat) (ops : List (KOp α κ)) (w : World) :
    (kplay E K eq A b ops >>= fun c => pure c.base) w = hplay E comp eq A b (ops.map KOp.base) w := by
  have key : ∀ (ops : List (KOp α κ)) (c : KHeaps A α κ), (c.run E K eq ops >>= fun c => pure c.base) = c.base.run E comp eq (ops.map KOp.base) := by
    intro ops
    induction ops with
    | nil => intro c; simp [KHeaps.run, BHeaps.run]
    | cons o os ih =>
      intro c
      simp only [KHeaps.run, KHeaps.step, List.map_cons, BHeaps.run, bind_assoc, pure_bind, hK]
      congr 1
      funext x
      exact ih ⟨x, _⟩
  unfold kplay hplay
  rw [bind_assoc]
  refine congrFun ?_ w
  congr 1
  funext s
  exact key ops _

/-! ### Examples -/

/-- A comparator with a table, like `struct { std::vector<unsigned> rank; bool operator()(T a, T b) const; }`: elements compare by their rank. The
default is an empty table, in which all ranks are 0; that is also what moving leaves behind. -/
def byRank : Cmp (List Nat) UInt8 :=
  ⟨fun r a b => decide (r.getD a.toNat 0 < r.getD b.toNat 0), fun _ => [], fun _ => [], []⟩

/-- by rank is a strict weak order, whatever the table -/
theorem byRank_weak (r : List Nat) : StrictWeak (byRank.less r) := by
  refine ⟨fun a => ?_, fun a b c h1 h2 => ?_, fun a b c h1 h2 h3 h4 => ?_⟩ <;>
    simp only [byRank, decide_eq_true_eq, decide_eq_false_iff_not] at * <;> omega

/-- Two heaps with opposite orders; a third takes over the order of the first by assignment. -/
def demoKOps : List (KOp UInt8 (List Nat)) :=
  [.newList [0, 1, 2] [10, 20, 30], .newList [0, 1, 2] [30, 20, 10], .plain (.pop 0), .plain (.pop 1), .plain .new, .plain (.copyAssign 2 0),
    .plain (.insert 2 0), .plain (.pop 2)]

example : HSane .mallocator demoElt (demoKOps.map KOp.base) ∧ popsLast [] (demoKOps.map KOp.base) = false ∧ demoElt.Ok ∧
    AllocTy.mallocator.WF ∧ Storage (demoWorld 0) 4096 AllocTy.mallocator.size :=
  ⟨⟨by decide, fun _ => rfl⟩, by decide, demoElt_ok, trivial, demoStorage 0 (by decide)⟩

/-- the program runs: the first heap delivers 0, the second 2; the third delivers 0, by the order of the first -/
example : ((kplay demoElt byRank (fun a b => a == b) (mallocator (demoSys .direct)) 4096 demoKOps (demoWorld 0)).test fun c _ =>
    decide (c.base.seen = [.elem 0, .elem 2, .elem 0, .elem 0] ∧ c.cs = [[10, 20, 30], [30, 20, 10], [10, 20, 30]])) = true := by decide +kernel

/-- **C99, a heap that was moved from.** It depends on the way of moving whether the source can be used again: constructed from, it still has its comparator; assigned
from, it has what moving leaves of a comparator (an empty `std::function` cannot even be called). Here the source is filled with 2, 1 and 0, in this
order, ranked 30, 20, 10: after construction it delivers 0 first, after assignment 2. -/
theorem C99_moved_from_false :
    ((kplay demoByte byRank (fun a b => a == b) (mallocator (demoSys .direct)) 4096
      [.newList [0, 1] [10, 20, 30], .plain (.move 0), .plain (.insert 0 2), .plain (.insert 0 1), .plain (.insert 0 0), .plain (.pop 0)] (demoWorld 0)).test
      fun c _ => decide (c.base.seen.getLast? = some (.elem 0) ∧ c.cs[0]? = some [10, 20, 30])) = true ∧
    ((kplay demoByte byRank (fun a b => a == b) (mallocator (demoSys .direct)) 4096
      [.newList [0, 1] [10, 20, 30], .plain .new, .plain (.moveAssign 1 0), .plain (.insert 0 2), .plain (.insert 0 1), .plain (.insert 0 0), .plain (.pop 0)]
      (demoWorld 0)).test fun c _ => decide (c.base.seen.getLast? = some (.elem 2) ∧ c.cs[0]? = some [])) = true := by
  constructor <;> decide +kernel

/-- the hypotheses of `C99_popping_sorts` are met -/
example : HSane .mallocator demoByte (([KOp.newList ([0, 1, 2] : List UInt8) [10, 20, 30]] ++ List.replicate 3 (KOp.plain (α := UInt8) (κ := List Nat) (.pop 0))).map KOp.base) ∧ demoByte.trivial = true :=
  ⟨⟨by decide, fun _ => rfl⟩, rfl⟩

/-- a comparator class without state -/
example : ∀ k : Unit, (⟨fun _ => demoLess, id, id, ()⟩ : Cmp Unit UInt8).less k = demoLess := fun _ => rfl

end KTL
