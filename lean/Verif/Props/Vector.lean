import Verif.Containers.VectorSpec
import Verif.Spec.Strict
import Verif.Props.Memory
import Verif.Props.Construct
import Verif.Props.Linear

/- C42, C43, C48: programs with any number of `trivial_vector`s. -/
namespace KTL

/-! ### Specification: sequences -/

/-- What a program with sequences instead of vectors has: the sequences (of elements), and what it has seen. -/
structure Seqs where
  xs : List (List (List UInt8))
  seen : List (List UInt8) := []

/-- The meaning of the operations on sequences. Operations outside their precondition do nothing. New elements
made by `vector(n)` and by a growing `resize` are unspecified. -/
def Seqs.Step (sz : Nat) (c : Seqs) (o : VOp) (c' : Seqs) : Prop :=
  match o with
  | .new => c' = { c with xs := c.xs ++ [[]] }
  | .newSize n => ∃ us, us.length = n ∧ (∀ u ∈ us, u.length = sz) ∧ c' = { c with xs := c.xs ++ [us] }
  | .newFill n x => c' = if x.length = sz then { c with xs := c.xs ++ [List.replicate n x] } else c
  | .newRange ys => c' = if ∀ y ∈ ys, y.length = sz then { c with xs := c.xs ++ [ys] } else c
  | .copy j =>
    match c.xs[j]? with
    | some ys => c' = { c with xs := c.xs ++ [ys] }
    | none => c' = c
  | .move j =>
    match c.xs[j]? with
    | some ys => c' = { c with xs := c.xs.set j [] ++ [ys] }
    | none => c' = c
  | .copyAssign i j =>
    match c.xs[i]?, c.xs[j]? with
    | some _, some ys => c' = if i = j then c else { c with xs := c.xs.set i ys }
    | _, _ => c' = c
  | .moveAssign i j =>
    match c.xs[i]?, c.xs[j]? with
    | some _, some ys => c' = { c with xs := (c.xs.set i ys).set j [] }
    | _, _ => c' = c
  | .destroy i => c' = { c with xs := c.xs.eraseIdx i }
  | .push i x =>
    match c.xs[i]? with
    | some ys => c' = if x.length = sz then { xs := c.xs.set i (ys ++ [x]), seen := c.seen ++ [x] } else c
    | none => c' = c
  | .pushRange i zs =>
    match c.xs[i]? with
    | some ys => c' = if ∀ z ∈ zs, z.length = sz then { xs := c.xs.set i (ys ++ zs), seen := c.seen ++ [zs.flatten] } else c
    | none => c' = c
  | .pushFrom i j a n =>
    match c.xs[i]?, c.xs[j]? with
    | some ys, some zs =>
      c' = if i ≠ j ∧ a + n ≤ zs.length then
        { xs := c.xs.set i (ys ++ (zs.drop a).take n), seen := c.seen ++ [((zs.drop a).take n).flatten] } else c
    | _, _ => c' = c
  | .erase i k =>
    match c.xs[i]? with
    | some ys => c' = if k < ys.length then { xs := c.xs.set i (ys.eraseIdx k), seen := c.seen ++ [(ys.drop (k + 1)).flatten] } else c
    | none => c' = c
  | .eraseRange i a n =>
    match c.xs[i]? with
    | some ys => c' = if a + n ≤ ys.length then
        { xs := c.xs.set i (ys.take a ++ ys.drop (a + n)), seen := c.seen ++ [(ys.drop (a + n)).flatten] } else c
    | none => c' = c
  | .resize i n =>
    match c.xs[i]? with
    | some ys => ∃ us, us.length = n - ys.length ∧ (∀ u ∈ us, u.length = sz) ∧ c' = { c with xs := c.xs.set i (ys.take n ++ us) }
    | none => c' = c
  | .reserve _ _ => c' = c
  | .clear i => c' = { c with xs := c.xs.set i [] }
  | .write i k x =>
    match c.xs[i]? with
    | some ys => c' = if k < ys.length ∧ x.length = sz then { c with xs := c.xs.set i (ys.set k x) } else c
    | none => c' = c
  | .read i k =>
    match c.xs[i]? with
    | some ys =>
      match ys[k]? with
      | some x => c' = { c with seen := c.seen ++ [x] }
      | none => c' = c
    | none => c' = c

/-- `ops` can take the sequences from `c` to `c'`. -/
inductive Seqs.Run (sz : Nat) : Seqs → List VOp → Seqs → Prop
  | nil (c) : Run sz c [] c
  | cons {c o c' os c''} : c.Step sz o c' → Run sz c' os c'' → Run sz c (o :: os) c''

/-- How many elements an operation asks for. -/
def VOp.weight : VOp → Nat
  | .newSize n | .newFill n _ | .pushFrom _ _ _ n | .resize _ n | .reserve _ n => n
  | .newRange xs | .pushRange _ xs => xs.length
  | .push _ _ => 1
  | _ => 0

/-- The sum over a program. -/
def weights : List VOp → Nat
  | [] => 0
  | o :: os => o.weight + weights os

/-- The operation may allocate zero bytes (see C58 for compositions that cannot serve that). -/
def VOp.mayBeEmpty : VOp → Bool
  | .newSize 0 | .newFill 0 _ | .newRange [] | .copy _ | .copyAssign _ _ => true
  | _ => false

/-! ### Proof -/

/-- a vector together with what it represents -/
structure Ghost where
  v : Vec
  cap : Nat
  xs : List (List UInt8)
  full : List UInt8

def Ghost.own (g : Ghost) : List (Nat × List UInt8) := g.v.own g.full

structure Ghost.Ok (sz T : Nat) (g : Ghost) : Prop where
  rep : g.v.Rep sz g.cap g.xs g.full
  cap_le : g.cap ≤ 2 * T
  size_le : g.xs.length ≤ T

theorem Ghost.Ok.mono {sz T T' : Nat} {g : Ghost} (h : g.Ok sz T) (hT : T ≤ T') : g.Ok sz T' :=
  ⟨h.rep, by have := h.cap_le; omega, by have := h.size_le; omega⟩

def VInv {A : Allocator} {fA : Nat → Prop} (hA : Sound A fA) (b sz T : Nat) (c : Vecs A) (S : Seqs) : HProp := fun x =>
  ∃ Γ : List Ghost, c.vs = Γ.map Ghost.v ∧ S.xs = Γ.map Ghost.xs ∧ c.seen = S.seen ∧ (∀ g ∈ Γ, g.Ok sz T) ∧
    Pool hA b c.st (Γ.flatMap Ghost.own) x

theorem own_perm {Γ : List Ghost} {i : Nat} {g : Ghost} (h : Γ[i]? = some g) :
    (Γ.flatMap Ghost.own).Perm (g.own ++ (Γ.eraseIdx i).flatMap Ghost.own) := by
  have := (perm_eraseIdx h).flatMap_right Ghost.own
  simpa using this

theorem own_set {Γ : List Ghost} {i : Nat} {g : Ghost} (h : Γ[i]? = some g) (g' : Ghost) :
    ((Γ.set i g').flatMap Ghost.own).Perm (g'.own ++ (Γ.eraseIdx i).flatMap Ghost.own) := by
  have := (perm_set (y := g') h).flatMap_right Ghost.own
  simpa using this

theorem own_append (Γ : List Ghost) (g : Ghost) : ((Γ ++ [g]).flatMap Ghost.own).Perm (g.own ++ Γ.flatMap Ghost.own) := by
  simpa using List.perm_append_comm (l₁ := Γ.flatMap Ghost.own) (l₂ := g.own)

theorem set_self_map {α β} (f : α → β) {l : List α} {i : Nat} {a : α} (h : l[i]? = some a) : (l.map f).set i (f a) = l.map f := by
  induction l generalizing i with
  | nil => rfl
  | cons x l ih =>
    cases i with
    | zero => simp at h; simp [h]
    | succ i => simp only [List.getElem?_cons_succ] at h; simp [ih h]

section
variable {A : Allocator} {fA : Nat → Prop} {hA : Sound A fA} {b sz T T' : Nat} {c : Vecs A} {S : Seqs} {Γ : List Ghost} {x : Heap}

/-- re-establish the invariant after changing vector `i` -/
theorem VInv.set (hok : ∀ g ∈ Γ, g.Ok sz T) (hT : T ≤ T') {i : Nat} {g g' : Ghost} (hi : Γ[i]? = some g) (h' : g'.Ok sz T')
    {s : A.St} (hp : Pool hA b s (g'.own ++ (Γ.eraseIdx i).flatMap Ghost.own) x) (hv : c.vs = Γ.map Ghost.v)
    (hx : S.xs = Γ.map Ghost.xs) {c' : Vecs A} {S' : Seqs} (hc : c'.st = s) (hcv : c'.vs = c.vs.set i g'.v) (hS : S'.xs = S.xs.set i g'.xs)
    (hseen : c'.seen = S'.seen) : VInv hA b sz T' c' S' x := by
  refine ⟨Γ.set i g', ?_, ?_, hseen, ?_, ?_⟩
  · rw [hcv, hv, List.map_set]
  · rw [hS, hx, List.map_set]
  · intro g1 hg1
    rcases List.mem_or_eq_of_mem_set hg1 with h | h
    · exact (hok g1 h).mono hT
    · rw [h]; exact h'
  · rw [hc, Pool.perm (own_set hi g')]; exact hp

/-- re-establish the invariant after a constructor -/
theorem VInv.add (hok : ∀ g ∈ Γ, g.Ok sz T) (hT : T ≤ T') {g' : Ghost} (h' : g'.Ok sz T')
    {s : A.St} (hp : Pool hA b s (g'.own ++ Γ.flatMap Ghost.own) x) (hv : c.vs = Γ.map Ghost.v)
    (hx : S.xs = Γ.map Ghost.xs) {c' : Vecs A} {S' : Seqs} (hc : c'.st = s) (hcv : c'.vs = c.vs ++ [g'.v]) (hS : S'.xs = S.xs ++ [g'.xs])
    (hseen : c'.seen = S'.seen) : VInv hA b sz T' c' S' x := by
  refine ⟨Γ ++ [g'], ?_, ?_, hseen, ?_, ?_⟩
  · rw [hcv, hv]; simp
  · rw [hS, hx]; simp
  · intro g1 hg1
    rcases List.mem_append.1 hg1 with h | h
    · exact (hok g1 h).mono hT
    · rw [List.mem_singleton.1 h]; exact h'
  · rw [hc, Pool.perm (own_append Γ g')]; exact hp

theorem VInv.get (hv : c.vs = Γ.map Ghost.v) (hx : S.xs = Γ.map Ghost.xs) (i : Nat) :
    (Γ[i]? = none ∧ c.vs[i]? = none ∧ S.xs[i]? = none) ∨ ∃ g, Γ[i]? = some g ∧ g ∈ Γ ∧ c.vs[i]? = some g.v ∧ S.xs[i]? = some g.xs := by
  rw [hv, hx]
  simp only [List.getElem?_map]
  cases h : Γ[i]? with
  | none => left; exact ⟨rfl, rfl, rfl⟩
  | some g => right; exact ⟨g, rfl, List.mem_of_getElem? h, rfl, rfl⟩

theorem VInv.keep (hok : ∀ g ∈ Γ, g.Ok sz T) (hT : T ≤ T') (hv : c.vs = Γ.map Ghost.v)
    (hx : S.xs = Γ.map Ghost.xs) (hs : c.seen = S.seen) (hp : Pool hA b c.st (Γ.flatMap Ghost.own) x) : VInv hA b sz T' c S x :=
  ⟨Γ, hv, hx, hs, fun g hg => (hok g hg).mono hT, hp⟩

/-- the block of one of the other vectors is among the rest -/
theorem own_mem_eraseIdx {i j : Nat} {o : Ghost} (hij : i ≠ j) (hj : Γ[j]? = some o) :
    ∀ y ∈ o.own, y ∈ (Γ.eraseIdx i).flatMap Ghost.own := by
  intro y hy
  refine List.mem_flatMap.2 ⟨o, ?_, hy⟩
  rw [List.mem_eraseIdx_iff_getElem?]
  exact ⟨j, Ne.symm hij, hj⟩
end

theorem grown_le {cap size n T : Nat} (h1 : size ≤ cap) (h2 : cap ≤ 2 * T) (h3 : size ≤ T) : grown cap size n ≤ 2 * (T + n) := by
  unfold grown; split <;> omega

theorem resized_le {cap n T : Nat} (h2 : cap ≤ 2 * T) : resized cap n ≤ 2 * (T + n) := by
  unfold resized; split <;> omega

/-- One operation. -/
theorem vstep {A : Allocator} {fA : Nat → Prop} (hA : Sound A fA) (b sz T N : Nat) (c : Vecs A) (S : Seqs) (o : VOp) (hz : 0 < sz)
    (hfit : ∀ n, 0 < n → n ≤ 2 * N → sz * n < W64 ∧ fA (sz * n)) (h0 : o.mayBeEmpty = true → fA 0) (hN : T + o.weight ≤ N) :
    Triple (VInv hA b sz T c S) (c.step sz o) (fun c' x => ∃ S', S.Step sz o S' ∧ VInv hA b sz (T + o.weight) c' S' x) := by
  refine Triple.exists fun Γ => Triple.and fun hv => Triple.and fun hx => Triple.and fun hs => Triple.and fun hok => ?_
  have hW : ∀ n, n ≤ 2 * N → sz * n < W64 := fun n hn => by
    by_cases h : n = 0
    · subst h; rw [Nat.mul_zero]; decide
    · exact (hfit n (by omega) hn).1
  have hF : ∀ n, (n = 0 → fA 0) → n ≤ 2 * N → fA (sz * n) := fun n hn0 hn => by
    by_cases h : n = 0
    · subst h; exact hn0 rfl
    · exact (hfit n (by omega) hn).2
  have hC : ∀ g ∈ Γ, sz * g.cap < W64 := fun g hg => hW _ (by have := (hok g hg).cap_le; omega)
  have skip : ∀ S' : Seqs, S' = S → S.Step sz o S' →
      Triple (Pool hA b c.st (Γ.flatMap Ghost.own)) (pure c : M (Vecs A))
        (fun c' x => ∃ S', S.Step sz o S' ∧ VInv hA b sz (T + o.weight) c' S' x) := fun S' e hS' =>
    Triple.pure _ (fun x hp => ⟨S', hS', by subst e; exact VInv.keep hok (by omega) hv hx hs hp⟩)
  cases o with
  | new =>
    refine Triple.pure _ (fun x hp => ⟨_, rfl, ?_⟩)
    exact VInv.add (g' := ⟨.null, 0, [], []⟩) hok (Nat.le_refl _) ⟨Vec.null_rep, by simp, by simp⟩ hp hv hx rfl rfl rfl hs
  | newSize n =>
    refine Triple.bind (Vec.ofSize_spec n (hF n (fun h => h0 (by subst h; rfl)) (by simp only [VOp.weight] at hN; omega)) (hW _ (by simp only [VOp.weight] at hN; omega))) (fun r => ?_)
    refine Triple.exists fun full => Triple.exists fun us => Triple.and fun hu => Triple.and fun hr => Triple.pure _ (fun x hp => ?_)
    refine ⟨{ S with xs := S.xs ++ [us] }, ⟨us, hu, hr.elems, rfl⟩, ?_⟩
    exact VInv.add (g' := ⟨r.2, n, us, full⟩) hok (Nat.le_add_right _ _) ⟨hr, by simp only [VOp.weight]; omega, by simp only [VOp.weight]; omega⟩ hp hv hx rfl rfl rfl hs
  | newFill n y =>
    simp only [Vecs.step]
    by_cases hy : y.length = sz
    · rw [if_pos hy]
      refine Triple.bind (Vec.ofFill_spec hz n y (.val y) (.inl rfl) hy (hF n (fun h => h0 (by subst h; rfl)) (by simp only [VOp.weight] at hN; omega)) (hW _ (by simp only [VOp.weight] at hN; omega))) (fun r => ?_)
      refine Triple.exists fun full => Triple.and fun hr => Triple.pure _ (fun x hp => ?_)
      refine ⟨{ S with xs := S.xs ++ [List.replicate n y] }, by simp only [Seqs.Step, hy, if_true], ?_⟩
      exact VInv.add (g' := ⟨r.2, n, _, full⟩) hok (Nat.le_add_right _ _) ⟨hr, by simp only [VOp.weight]; omega, by simp [VOp.weight]⟩ hp hv hx rfl rfl rfl hs
    · rw [if_neg hy]
      exact skip S rfl (by simp only [Seqs.Step, hy, if_false])
  | newRange ys =>
    simp only [Vecs.step]
    by_cases hy : ∀ y ∈ ys, y.length = sz
    · rw [if_pos hy]
      refine Triple.bind (Vec.ofRange_spec hz ys (.val ys.flatten) (.inl rfl) hy (hF _ (fun h => h0 (by rw [List.length_eq_zero_iff.1 h]; rfl)) (by simp only [VOp.weight] at hN; omega)) (hW _ (by simp only [VOp.weight] at hN; omega))) (fun r => ?_)
      refine Triple.exists fun full => Triple.and fun hr => Triple.pure _ (fun x hp => ?_)
      refine ⟨{ S with xs := S.xs ++ [ys] }, by simp only [Seqs.Step]; rw [if_pos hy], ?_⟩
      exact VInv.add (g' := ⟨r.2, _, _, full⟩) hok (Nat.le_add_right _ _) ⟨hr, by simp only [VOp.weight]; omega, by simp [VOp.weight]⟩ hp hv hx rfl rfl rfl hs
    · rw [if_neg hy]
      exact skip S rfl (by simp only [Seqs.Step]; rw [if_neg hy])
  | copy j =>
    rcases VInv.get hv hx j with ⟨h1, h2, h3⟩ | ⟨g, h1, h1', h2, h3⟩
    · simp only [Vecs.step, h2]
      exact skip S rfl (by simp only [Seqs.Step, h3])
    · simp only [Vecs.step, h2]
      have hg := hok g h1'
      have hle := hg.size_le
      refine Triple.bind (Vec.copy_spec hz hg.rep (hF _ (fun _ => h0 rfl) (by simp only [VOp.weight] at hN; omega)) (hW _ (by simp only [VOp.weight] at hN; omega))
        (fun y hy => List.mem_flatMap.2 ⟨g, h1', hy⟩)) (fun r => ?_)
      refine Triple.exists fun full => Triple.and fun hr => Triple.pure _ (fun x hp => ?_)
      refine ⟨{ S with xs := S.xs ++ [g.xs] }, by simp only [Seqs.Step, h3], ?_⟩
      exact VInv.add (g' := ⟨r.2, _, _, full⟩) hok (Nat.le_add_right _ _) ⟨hr, by simp only [VOp.weight]; omega, by simp only [VOp.weight]; omega⟩ hp hv hx rfl rfl rfl hs
  | move j =>
    rcases VInv.get hv hx j with ⟨h1, h2, h3⟩ | ⟨g, h1, h1', h2, h3⟩
    · simp only [Vecs.step, h2]
      exact skip S rfl (by simp only [Seqs.Step, h3])
    · simp only [Vecs.step, h2]
      refine Triple.pure _ (fun x hp => ?_)
      refine ⟨{ S with xs := S.xs.set j [] ++ [g.xs] }, by simp only [Seqs.Step, h3], Γ.set j ⟨.null, 0, [], []⟩ ++ [g], ?_, ?_, hs, ?_, ?_⟩
      · simp [hv, List.map_set]
      · simp [hx, List.map_set]
      · intro g1 hg1
        rcases List.mem_append.1 hg1 with h | h
        · rcases List.mem_or_eq_of_mem_set h with h | h
          · exact (hok g1 h).mono (Nat.le_add_right _ _)
          · rw [h]; exact ⟨Vec.null_rep, by simp, by simp⟩
        · rw [List.mem_singleton.1 h]; exact (hok g h1').mono (Nat.le_add_right _ _)
      · have e : ((Γ.set j ⟨.null, 0, [], []⟩ ++ [g]).flatMap Ghost.own).Perm (Γ.flatMap Ghost.own) := by
          refine (own_append _ g).trans ?_
          refine .trans ?_ (own_perm h1).symm
          exact (own_set h1 ⟨.null, 0, [], []⟩).append_left _
        rw [Pool.perm e]; exact hp
  | copyAssign i j =>
    simp only [Vecs.step]
    by_cases hij : i = j
    · rw [if_pos hij]
      refine skip S rfl ?_
      rcases VInv.get hv hx i with ⟨h1, h2, h3⟩ | ⟨g, h1, h1', h2, h3⟩
      · simp only [Seqs.Step, h3]
      · subst hij; simp only [Seqs.Step, h3, if_true]
    · rw [if_neg hij]
      unfold Vecs.copyAssign
      rcases VInv.get hv hx i with ⟨h1, h2, h3⟩ | ⟨g, h1, h1', h2, h3⟩
      · simp only [h2]
        exact skip S rfl (by simp only [Seqs.Step, h3])
      · rcases VInv.get hv hx j with ⟨k1, k2, k3⟩ | ⟨o, k1, k1', k2, k3⟩
        · simp only [h2, k2]
          exact skip S rfl (by simp only [Seqs.Step, h3, k3])
        · simp only [h2, k2]
          have ho := hok o k1'
          have hle := ho.size_le
          rw [Pool.perm (own_perm h1)]
          refine Triple.bind (Vec.destroy_spec (s := c.st) hz (hok g h1').rep (hC g h1')) (fun s' => ?_)
          have hset : ∀ v' : Vec, (c.vs.set i v')[j]? = some o.v := fun v' => by
            rw [List.getElem?_set_ne hij]; exact k2
          simp only [hset, ho.rep.size_eq hz]
          have key : Triple (Pool hA b s' ((Γ.eraseIdx i).flatMap Ghost.own)) (Vec.ofRange sz A s' o.xs.length (.ref o.v.beg))
              (fun r z => ∃ full, r.2.Rep sz o.xs.length o.xs full ∧ Pool hA b r.1 (r.2.own full ++ (Γ.eraseIdx i).flatMap Ghost.own) z) := by
            by_cases hb : o.v.beg = 0
            · have hxe : o.xs = [] := List.length_eq_zero_iff.1 (by have := ho.rep.null hb; have := ho.rep.le; omega)
              refine Triple.bind (Vec.ofSize_spec (sz := sz) o.xs.length (hF _ (fun _ => h0 rfl) (by simp only [VOp.weight] at hN; omega)) (hW _ (by simp only [VOp.weight] at hN; omega)))
                (fun r => ?_)
              refine Triple.exists fun full => Triple.exists fun us => Triple.and fun hu => Triple.and fun hr => ?_
              have hue : us = [] := List.length_eq_zero_iff.1 (by rw [hu, hxe]; rfl)
              rw [hxe] at hr ⊢
              subst hue
              show Triple _ (M.memcpy r.2.beg o.v.beg (([] : List (List UInt8)).length * sz) >>= _) _
              unfold M.memcpy
              rw [List.length_nil, Nat.zero_mul, if_neg (by omega)]
              exact Triple.pure _ (fun z hz => ⟨full, hr, hz⟩)
            · exact Vec.ofRange_spec hz o.xs (.ref (o.v.beg + 0))
                (.inr ⟨o.v.beg, o.full, 0, rfl, own_mem_eraseIdx hij k1 _ (by unfold Ghost.own; rw [Vec.own_pos hb]; simp),
                  by rw [ho.rep.elems.length, ho.rep.len, Nat.zero_add]; exact ho.rep.mul_le, by rw [ho.rep.elems.length, List.drop_zero, ho.rep.data]⟩)
                ho.rep.elems (hF _ (fun _ => h0 rfl) (by simp only [VOp.weight] at hN; omega)) (hW _ (by simp only [VOp.weight] at hN; omega))
          have key2 := Triple.bind key (f := fun r => (pure { c with st := r.1, vs := c.vs.set i r.2 } : M (Vecs A)))
            (Q := fun c' x => ∃ S', S.Step sz (.copyAssign i j) S' ∧ VInv hA b sz (T + (VOp.copyAssign i j).weight) c' S' x) (fun r => by
              refine Triple.exists fun full => Triple.and fun hr => Triple.pure _ (fun x hp => ?_)
              refine ⟨{ S with xs := S.xs.set i o.xs }, by simp only [Seqs.Step, h3, k3, hij, if_false], ?_⟩
              exact VInv.set (g' := ⟨r.2, _, _, full⟩) hok (Nat.le_add_right _ _) h1 ⟨hr, by simp only [VOp.weight]; omega, by simp only [VOp.weight]; omega⟩ hp hv hx rfl rfl rfl hs)
          simp only [Vec.ofRange, Arg.copy, bind_assoc, pure_bind] at key2
          exact key2
  | moveAssign i j =>
    simp only [Vecs.step, Vecs.moveAssign]
    rcases VInv.get hv hx i with ⟨h1, h2, h3⟩ | ⟨g, h1, h1', h2, h3⟩
    · simp only [h2]
      exact skip S rfl (by simp only [Seqs.Step, h3])
    · rcases VInv.get hv hx j with ⟨k1, k2, k3⟩ | ⟨o, k1, k1', k2, k3⟩
      · simp only [h2, k2]
        exact skip S rfl (by simp only [Seqs.Step, h3, k3])
      · simp only [h2, k2]
        rw [Pool.perm (own_perm h1)]
        refine Triple.bind (Vec.destroy_spec (s := c.st) hz (hok g h1').rep (hC g h1')) (fun s' => Triple.pure _ (fun x hp => ?_))
        refine ⟨{ S with xs := (S.xs.set i o.xs).set j [] }, by simp only [Seqs.Step, h3, k3],
          (Γ.set i o).set j ⟨.null, 0, [], []⟩, ?_, ?_, hs, ?_, ?_⟩
        · simp [hv, List.map_set]
        · simp [hx, List.map_set]
        · intro g1 hg1
          rcases List.mem_or_eq_of_mem_set hg1 with h | h
          · rcases List.mem_or_eq_of_mem_set h with h | h
            · exact (hok g1 h).mono (Nat.le_add_right _ _)
            · rw [h]; exact (hok o k1').mono (Nat.le_add_right _ _)
          · rw [h]; exact ⟨Vec.null_rep, by simp, by simp⟩
        · have hb : ∃ y, (Γ.set i o)[j]? = some y := by
            by_cases hij : i = j
            · subst hij
              exact ⟨o, List.getElem?_set_self (by exact (List.getElem?_eq_some_iff.1 h1).1)⟩
            · rw [List.getElem?_set_ne hij]; exact ⟨o, k1⟩
          obtain ⟨y, hy⟩ := hb
          have e : (((Γ.set i o).set j ⟨.null, 0, [], []⟩).flatMap Ghost.own).Perm ((Γ.eraseIdx i).flatMap Ghost.own) := by
            refine (own_set hy ⟨.null, 0, [], []⟩).trans ?_
            show (((Γ.set i o).eraseIdx j).flatMap Ghost.own).Perm _
            by_cases hij : i = j
            · subst hij; rw [List.eraseIdx_set_eq]
            · have hyo : y = o := by
                rw [List.getElem?_set_ne hij, k1] at hy; exact (Option.some.inj hy).symm
              subst hyo
              have p1 : (y.own ++ ((Γ.set i y).eraseIdx j).flatMap Ghost.own).Perm (y.own ++ (Γ.eraseIdx i).flatMap Ghost.own) :=
                (own_perm hy).symm.trans (own_set h1 y)
              exact (List.perm_append_left_iff _).1 p1
          rw [Pool.perm e]; exact hp
  | destroy i =>
    rcases VInv.get hv hx i with ⟨h1, h2, h3⟩ | ⟨g, h1, h1', h2, h3⟩
    · simp only [Vecs.step, h2]
      refine skip _ ?_ rfl
      rw [List.eraseIdx_of_length_le (by simpa using h3)]
    · simp only [Vecs.step, h2]
      rw [Pool.perm (own_perm h1)]
      refine Triple.bind (Vec.destroy_spec (s := c.st) hz (hok g h1').rep (hC g h1')) (fun s' => Triple.pure _ (fun x hp => ?_))
      refine ⟨_, rfl, Γ.eraseIdx i, ?_, ?_, hs, ?_, hp⟩
      · rw [hv]; exact Linear.map_eraseIdx' _ _ _
      · rw [hx]; exact Linear.map_eraseIdx' _ _ _
      · intro g1 hg1
        exact (hok g1 (List.mem_of_mem_eraseIdx hg1)).mono (Nat.le_add_right _ _)
  | push i y =>
    rcases VInv.get hv hx i with ⟨h1, h2, h3⟩ | ⟨g, h1, h1', h2, h3⟩
    · simp only [Vecs.step, h2]
      exact skip S rfl (by simp only [Seqs.Step, h3])
    · simp only [Vecs.step, h2]
      by_cases hy : y.length = sz
      · rw [if_pos hy, Pool.perm (own_perm h1)]
        have hg := hok g h1'
        have hgr := grown_le (n := 1) hg.rep.le hg.cap_le hg.size_le
        simp only [VOp.weight] at hN
        have hpos : grown g.cap g.xs.length 1 ≠ 0 := by unfold grown; have := hg.rep.le; split <;> omega
        refine Triple.bind (Vec.pushBack_spec (s := c.st) hz hg.rep (hC g h1') y (.val y) (.inl rfl) hy
          (fun _ => hF _ (fun h => absurd h hpos) (by omega)) (hW _ (by omega))) (fun r => ?_)
        refine Triple.and fun hit => Triple.exists fun full => Triple.and fun hr => ?_
        refine Triple.bind (Vec.readAt_spec hr g.xs.length 1 r.1 sz (by simp) hit (by simp)) (fun z => ?_)
        refine Triple.and fun hz' => Triple.pure _ (fun x hp => ?_)
        refine ⟨{ xs := S.xs.set i (g.xs ++ [y]), seen := S.seen ++ [y] }, by simp only [Seqs.Step, h3, hy, if_true], ?_⟩
        refine VInv.set (g' := ⟨r.2.2, _, _, full⟩) hok (Nat.le_add_right _ _) h1 ⟨hr, hgr, ?_⟩ hp hv hx rfl rfl rfl ?_
        · have := hg.size_le; simp [VOp.weight]; omega
        · show c.seen ++ [z] = S.seen ++ [y]
          rw [hs, hz']; simp
      · rw [if_neg hy]
        exact skip S rfl (by simp only [Seqs.Step, h3, hy, if_false])
  | pushRange i ys =>
    rcases VInv.get hv hx i with ⟨h1, h2, h3⟩ | ⟨g, h1, h1', h2, h3⟩
    · simp only [Vecs.step, h2]
      exact skip S rfl (by simp only [Seqs.Step, h3])
    · simp only [Vecs.step, h2]
      by_cases hy : ∀ y ∈ ys, y.length = sz
      · rw [if_pos hy, Pool.perm (own_perm h1)]
        have hg := hok g h1'
        have hgr := grown_le (n := ys.length) hg.rep.le hg.cap_le hg.size_le
        simp only [VOp.weight] at hN
        refine Triple.bind (Vec.pushRange_spec (s := c.st) hz hg.rep (hC g h1') ys (.val ys.flatten) (.inl rfl) hy
          (fun hlt => hF _ (fun h => absurd h (by unfold grown; have := hg.rep.le; split <;> omega)) (by omega)) (hW _ (by omega))) (fun r => ?_)
        refine Triple.and fun hit => Triple.exists fun full => Triple.and fun hr => ?_
        refine Triple.bind (Vec.readAt_spec hr g.xs.length ys.length r.1 _ (by simp) hit rfl) (fun z => ?_)
        refine Triple.and fun hz' => Triple.pure _ (fun x hp => ?_)
        refine ⟨{ xs := S.xs.set i (g.xs ++ ys), seen := S.seen ++ [ys.flatten] }, by simp only [Seqs.Step, h3]; rw [if_pos hy], ?_⟩
        refine VInv.set (g' := ⟨r.2.2, _, _, full⟩) hok (Nat.le_add_right _ _) h1 ⟨hr, hgr, ?_⟩ hp hv hx rfl rfl rfl ?_
        · have := hg.size_le; simp [VOp.weight]; omega
        · show c.seen ++ [z] = S.seen ++ [ys.flatten]
          rw [hs, hz']; simp
      · rw [if_neg hy]
        exact skip S rfl (by simp only [Seqs.Step, h3]; rw [if_neg hy])
  | pushFrom i j a n =>
    rcases VInv.get hv hx i with ⟨h1, h2, h3⟩ | ⟨g, h1, h1', h2, h3⟩
    · simp only [Vecs.step, h2]
      exact skip S rfl (by simp only [Seqs.Step, h3])
    · rcases VInv.get hv hx j with ⟨k1, k2, k3⟩ | ⟨o, k1, k1', k2, k3⟩
      · simp only [Vecs.step, h2, k2]
        exact skip S rfl (by simp only [Seqs.Step, h3, k3])
      · have ho := hok o k1'
        simp only [Vecs.step, h2, k2, ho.rep.size_eq hz]
        by_cases hc : i ≠ j ∧ a + n ≤ o.xs.length
        · rw [if_pos hc, Pool.perm (own_perm h1)]
          have hg := hok g h1'
          have hgr := grown_le (n := n) hg.rep.le hg.cap_le hg.size_le
          simp only [VOp.weight] at hN
          have hE := (ho.rep.elems.drop a).take n
          have hl : ((o.xs.drop a).take n).length = n := by simp; omega
          have harg : ArgOk (.ref (o.v.beg + a * sz)) ((o.xs.drop a).take n).flatten ((Γ.eraseIdx i).flatMap Ghost.own) ∨ n = 0 := by
            by_cases hn : n = 0
            · exact .inr hn
            · refine .inl (.inr ⟨o.v.beg, o.full, a * sz, rfl, own_mem_eraseIdx hc.1 k1 _ ?_, ?_, ?_⟩)
              · unfold Ghost.own; rw [Vec.own_pos (ho.rep.pos_of_index (k := a) (by omega))]; simp
              · rw [hE.length, hl, ho.rep.len, ← Nat.add_mul]
                exact Nat.mul_le_mul_right _ (by have := ho.rep.le; omega)
              · rw [hE.length, hl, ho.rep.slice a n hc.2]
          have key : Triple (Pool hA b c.st (g.own ++ (Γ.eraseIdx i).flatMap Ghost.own)) (g.v.pushRange sz A c.st n (.ref (o.v.beg + a * sz)))
              (fun r z => r.1 = r.2.2.beg + g.xs.length * sz ∧ ∃ full', r.2.2.Rep sz (grown g.cap g.xs.length n) (g.xs ++ (o.xs.drop a).take n) full' ∧
                Pool hA b r.2.1 (r.2.2.own full' ++ (Γ.eraseIdx i).flatMap Ghost.own) z) := by
            rcases harg with harg | hn
            · have := Vec.pushRange_spec (hA := hA) (b := b) (s := c.st) hz hg.rep (hC g h1') ((o.xs.drop a).take n) (.ref (o.v.beg + a * sz)) harg hE
                (fun hlt => hF _ (fun h => absurd h (by rw [hl] at hlt ⊢; unfold grown; have := hg.rep.le; split <;> omega)) (by rw [hl]; omega)) (hW _ (by rw [hl]; omega))
              rw [hl] at this
              exact this
            · subst hn
              have h00 : grown g.cap g.xs.length 0 = g.cap := if_neg (by omega)
              unfold Vec.pushRange
              rw [hg.rep.room hz, if_neg (by omega), h00]
              refine Triple.bind (Triple.pure (Q := fun r z => r = (c.st, g.v) ∧ Pool hA b c.st (g.own ++ (Γ.eraseIdx i).flatMap Ghost.own) z) _ (fun z hz => ⟨rfl, hz⟩)) (fun r => ?_)
              refine Triple.and fun e => ?_
              subst e
              refine Triple.bind (R := fun _ => Pool hA b c.st (g.own ++ (Γ.eraseIdx i).flatMap Ghost.own)) ?_ (fun _ => Triple.pure _ (fun z hz => ⟨hg.rep.fin, g.full, ?_, hz⟩))
              · show Triple _ (M.memcpy _ _ (0 * sz)) _
                unfold M.memcpy
                rw [Nat.zero_mul, if_neg (by omega)]
                exact Triple.pure _ (fun z hz => hz)
              · have := hg.rep
                simpa using this
          refine Triple.bind key (fun r => ?_)
          refine Triple.and fun hit => Triple.exists fun full => Triple.and fun hr => ?_
          refine Triple.bind (Vec.readAt_spec hr g.xs.length n r.1 _ (by simp; omega) hit rfl) (fun z => ?_)
          refine Triple.and fun hz' => Triple.pure _ (fun x hp => ?_)
          refine ⟨_, by simp only [Seqs.Step, h3, k3]; rw [if_pos hc], ?_⟩
          refine VInv.set (g' := ⟨r.2.2, _, _, full⟩) hok (Nat.le_add_right _ _) h1 ⟨hr, hgr, ?_⟩ hp hv hx rfl rfl rfl ?_
          · have := hg.size_le; simp [VOp.weight]; omega
          · show c.seen ++ [z] = S.seen ++ [_]
            rw [hs, hz', List.drop_left, List.take_take, Nat.min_self]
        · rw [if_neg hc]
          exact skip S rfl (by simp only [Seqs.Step, h3, k3]; rw [if_neg hc])
  | erase i k =>
    rcases VInv.get hv hx i with ⟨h1, h2, h3⟩ | ⟨g, h1, h1', h2, h3⟩
    · simp only [Vecs.step, h2]
      exact skip S rfl (by simp only [Seqs.Step, h3])
    · have hg := hok g h1'
      simp only [Vecs.step, h2, hg.rep.size_eq hz]
      by_cases hk : k < g.xs.length
      · rw [if_pos hk, Pool.perm (own_perm h1), Vec.erase_eq hz hg.rep k hk]
        have hle := hg.size_le
        refine Triple.bind (Vec.eraseRange_spec hz hg.rep (hg.rep.pos_of_index hk) k 1 hk) (fun r => ?_)
        refine Triple.and fun hit => Triple.exists fun full => Triple.and fun hr => ?_
        have hl : (g.xs.take k ++ g.xs.drop (k + 1)).length = g.xs.length - 1 := by simp; omega
        refine Triple.bind (Vec.readAt_spec hr k (g.xs.length - 1 - k) r.1 _ (by rw [hl]; omega) hit.1 (by
          rw [hit.1, hr.fin, hl, Nat.sub_mul (g.xs.length - 1) k]; omega)) (fun z => ?_)
        refine Triple.and fun hz' => Triple.pure _ (fun x hp => ?_)
        refine ⟨_, by simp only [Seqs.Step, h3]; rw [if_pos hk], ?_⟩
        refine VInv.set (g' := ⟨r.2, _, _, full⟩) hok (Nat.le_add_right _ _) h1 ⟨hr, ?_, ?_⟩ hp hv hx rfl rfl ?_ ?_
        · have := hg.cap_le; simp [VOp.weight]; omega
        · rw [hl]; simp [VOp.weight]; omega
        · rw [List.eraseIdx_eq_take_drop_succ]
        · show c.seen ++ [z] = S.seen ++ [_]
          rw [hs, hz', List.drop_append, List.drop_of_length_le (by rw [List.length_take]; omega), List.length_take, Nat.min_eq_left (by omega)]
          rw [Nat.sub_self, List.drop_zero, List.nil_append, List.take_of_length_le (by simp; omega)]
      · rw [if_neg hk]
        exact skip S rfl (by simp only [Seqs.Step, h3, hk, if_false])
  | eraseRange i a n =>
    rcases VInv.get hv hx i with ⟨h1, h2, h3⟩ | ⟨g, h1, h1', h2, h3⟩
    · simp only [Vecs.step, h2]
      exact skip S rfl (by simp only [Seqs.Step, h3])
    · have hg := hok g h1'
      simp only [Vecs.step, h2, hg.rep.size_eq hz]
      by_cases hk : a + n ≤ g.xs.length
      · rw [if_pos hk, Pool.perm (own_perm h1)]
        have hle := hg.size_le
        have hl : (g.xs.take a ++ g.xs.drop (a + n)).length = g.xs.length - n := by simp; omega
        have key : Triple (Pool hA b c.st (g.own ++ (Γ.eraseIdx i).flatMap Ghost.own)) (g.v.eraseRange sz (g.v.beg + a * sz) (g.v.beg + (a + n) * sz))
            (fun r z => r.1 = r.2.beg + a * sz ∧ ∃ full', r.2.Rep sz g.cap (g.xs.take a ++ g.xs.drop (a + n)) full' ∧
              Pool hA b c.st (r.2.own full' ++ (Γ.eraseIdx i).flatMap Ghost.own) z) := by
          by_cases hb : g.v.beg = 0
          · have hxe : g.xs = [] := List.length_eq_zero_iff.1 (by have := hg.rep.null hb; have := hg.rep.le; omega)
            have e1 : a = 0 := by rw [hxe] at hk; simp at hk; omega
            have e2 : n = 0 := by rw [hxe] at hk; simp at hk; omega
            subst e1 e2
            unfold Vec.eraseRange
            have e3 : (g.v.fin - (g.v.beg + (0 + 0) * sz)) / sz * sz = 0 := by rw [hg.rep.fin, hxe]; simp
            rw [e3]
            refine Triple.bind (R := fun _ => Pool hA b c.st (g.own ++ (Γ.eraseIdx i).flatMap Ghost.own)) (Triple.pure _ (fun z hz => hz)) (fun _ => Triple.pure _ (fun z hz => ⟨by simp, g.full, ?_, ?_⟩))
            · have := hg.rep
              simpa using this
            · simpa [Ghost.own, Vec.own, hb] using hz
          · exact (Vec.eraseRange_spec hz hg.rep hb a n hk).post (fun r z hz => ⟨hz.1.1, hz.2⟩)
        refine Triple.bind key (fun r => ?_)
        refine Triple.and fun hit => Triple.exists fun full => Triple.and fun hr => ?_
        refine Triple.bind (Vec.readAt_spec hr a (g.xs.length - n - a) r.1 _ (by rw [hl]; omega) hit (by
          rw [hit, hr.fin, hl, Nat.sub_mul (g.xs.length - n) a]; omega)) (fun z => ?_)
        refine Triple.and fun hz' => Triple.pure _ (fun x hp => ?_)
        refine ⟨_, by simp only [Seqs.Step, h3]; rw [if_pos hk], ?_⟩
        refine VInv.set (g' := ⟨r.2, _, _, full⟩) hok (Nat.le_add_right _ _) h1 ⟨hr, ?_, ?_⟩ hp hv hx rfl rfl rfl ?_
        · have := hg.cap_le; simp [VOp.weight]; omega
        · rw [hl]; simp [VOp.weight]; omega
        · show c.seen ++ [z] = S.seen ++ [_]
          rw [hs, hz', List.drop_append, List.drop_of_length_le (by rw [List.length_take]; omega), List.length_take, Nat.min_eq_left (by omega)]
          rw [Nat.sub_self, List.drop_zero, List.nil_append, List.take_of_length_le (by simp; omega)]
      · rw [if_neg hk]
        exact skip S rfl (by simp only [Seqs.Step, h3, hk, if_false])
  | resize i n =>
    rcases VInv.get hv hx i with ⟨h1, h2, h3⟩ | ⟨g, h1, h1', h2, h3⟩
    · simp only [Vecs.step, h2]
      exact skip S rfl (by simp only [Seqs.Step, h3])
    · have hg := hok g h1'
      simp only [Vecs.step, h2]
      rw [Pool.perm (own_perm h1)]
      have hgr := resized_le (n := n) hg.cap_le
      replace hN : T + n ≤ N := hN
      refine Triple.bind (Vec.resize_spec (s := c.st) hz hg.rep (hC g h1') n
        (fun hlt => hF _ (fun h => absurd h (by unfold resized; split <;> omega)) (by omega)) (hW _ (by omega))) (fun r => ?_)
      refine Triple.exists fun us => Triple.exists fun full => Triple.and fun hu => Triple.and fun hE => Triple.and fun hr => Triple.pure _ (fun x hp => ?_)
      refine ⟨{ S with xs := S.xs.set i (g.xs.take n ++ us) }, by simp only [Seqs.Step, h3]; exact ⟨us, hu, hE, rfl⟩, ?_⟩
      refine VInv.set (g' := ⟨r.2, _, _, full⟩) hok (Nat.le_add_right _ _) h1 ⟨hr, hgr, ?_⟩ hp hv hx rfl rfl rfl hs
      show (g.xs.take n ++ us).length ≤ T + n
      rw [List.length_append, List.length_take, hu]
      omega
  | reserve i n =>
    rcases VInv.get hv hx i with ⟨h1, h2, h3⟩ | ⟨g, h1, h1', h2, h3⟩
    · simp only [Vecs.step, h2]
      exact skip S rfl rfl
    · have hg := hok g h1'
      simp only [Vecs.step, h2]
      rw [Pool.perm (own_perm h1)]
      simp only [VOp.weight] at hN
      refine Triple.bind (Vec.reserve_spec (s := c.st) hz hg.rep (hC g h1') n
        (fun hlt => hF _ (fun h => by omega) (by omega)) (fun _ => hW _ (by omega))) (fun r => ?_)
      refine Triple.exists fun full => Triple.and fun hr => Triple.pure _ (fun x hp => ?_)
      refine ⟨S, rfl, ?_⟩
      refine VInv.set (g' := ⟨r.2, _, _, full⟩) hok (Nat.le_add_right _ _) h1 ⟨hr, ?_, ?_⟩ hp hv hx rfl rfl ?_ hs
      · have := hg.cap_le; simp only [VOp.weight]; omega
      · have := hg.size_le; show g.xs.length ≤ T + n; omega
      · rw [hx]; exact (set_self_map Ghost.xs h1).symm
  | clear i =>
    rcases VInv.get hv hx i with ⟨h1, h2, h3⟩ | ⟨g, h1, h1', h2, h3⟩
    · simp only [Vecs.step, h2]
      refine skip _ ?_ rfl
      rw [List.set_eq_of_length_le (by simpa using h3)]
    · have hg := hok g h1'
      simp only [Vecs.step, h2]
      refine Triple.pure _ (fun x hp => ⟨_, rfl, ?_⟩)
      rw [Pool.perm (own_perm h1)] at hp
      exact VInv.set (g' := ⟨g.v.clear, g.cap, [], g.full⟩) hok (Nat.le_add_right _ _) h1 ⟨Vec.clear_rep hg.rep, hg.cap_le, by simp⟩ hp hv hx rfl rfl rfl hs
  | write i k y =>
    rcases VInv.get hv hx i with ⟨h1, h2, h3⟩ | ⟨g, h1, h1', h2, h3⟩
    · simp only [Vecs.step, h2]
      exact skip S rfl (by simp only [Seqs.Step, h3])
    · have hg := hok g h1'
      simp only [Vecs.step, h2, hg.rep.size_eq hz]
      by_cases hk : k < g.xs.length ∧ y.length = sz
      · rw [if_pos hk, Pool.perm (own_perm h1)]
        refine Triple.bind (Vec.write_spec hg.rep k y hk.1 hk.2) (fun _ => ?_)
        refine Triple.exists fun full => Triple.and fun hr => Triple.pure _ (fun x hp => ?_)
        refine ⟨_, by simp only [Seqs.Step, h3]; rw [if_pos hk], ?_⟩
        refine VInv.set (g' := ⟨g.v, g.cap, g.xs.set k y, full⟩) hok (Nat.le_add_right _ _) h1 ⟨hr, hg.cap_le, by rw [List.length_set]; exact hg.size_le⟩ hp hv hx rfl ?_ rfl hs
        rw [hv]; exact (set_self_map Ghost.v h1).symm
      · rw [if_neg hk]
        exact skip S rfl (by simp only [Seqs.Step, h3]; rw [if_neg hk])
  | read i k =>
    rcases VInv.get hv hx i with ⟨h1, h2, h3⟩ | ⟨g, h1, h1', h2, h3⟩
    · simp only [Vecs.step, h2]
      exact skip S rfl (by simp only [Seqs.Step, h3])
    · have hg := hok g h1'
      simp only [Vecs.step, h2, hg.rep.size_eq hz]
      by_cases hk : k < g.xs.length
      · rw [if_pos hk, Pool.perm (own_perm h1)]
        refine Triple.bind (Vec.readAt_spec hg.rep k 1 _ sz hk rfl (by simp)) (fun z => ?_)
        refine Triple.and fun hz' => Triple.pure _ (fun x hp => ?_)
        refine ⟨{ S with seen := S.seen ++ [g.xs[k]] }, by simp only [Seqs.Step, h3, List.getElem?_eq_getElem hk], ?_⟩
        have hp' : Pool hA b c.st (Γ.flatMap Ghost.own) x := by rw [Pool.perm (own_perm h1)]; exact hp
        refine ⟨Γ, hv, hx, ?_, fun g hg => (hok g hg).mono (Nat.le_add_right _ _), hp'⟩
        show c.seen ++ [z] = S.seen ++ [g.xs[k]]
        rw [hs, hz', List.drop_eq_getElem_cons hk]
        rw [List.take_succ_cons, List.take_zero, List.flatten_singleton]
      · rw [if_neg hk]
        exact skip S rfl (by simp only [Seqs.Step, h3, List.getElem?_eq_none (Nat.not_lt.1 hk)])

theorem vrun {A : Allocator} {fA : Nat → Prop} (hA : Sound A fA) (b sz N : Nat) (hz : 0 < sz)
    (hfit : ∀ n, 0 < n → n ≤ 2 * N → sz * n < W64 ∧ fA (sz * n)) (ops : List VOp) (h0 : (∃ o ∈ ops, o.mayBeEmpty = true) → fA 0)
    (T : Nat) (c : Vecs A) (S : Seqs) (hN : T + weights ops ≤ N) :
    Triple (VInv hA b sz T c S) (c.run sz ops) (fun c' x => ∃ S', Seqs.Run sz S ops S' ∧ VInv hA b sz N c' S' x) := by
  induction ops generalizing T c S with
  | nil =>
    refine Triple.pure _ (fun x hp => ⟨S, .nil S, ?_⟩)
    obtain ⟨Γ, h1, h2, h3, h4, h5⟩ := hp
    exact VInv.keep h4 (by simp [weights] at hN; omega) h1 h2 h3 h5
  | cons o os ih =>
    simp only [weights] at hN
    refine Triple.bind (vstep hA b sz T N c S o hz hfit (fun h => h0 ⟨o, by simp, h⟩) (by omega)) (fun c' => ?_)
    refine Triple.exists fun S' => Triple.and fun hstep => ?_
    refine (ih (fun ⟨o', ho, h⟩ => h0 ⟨o', by simp [ho], h⟩) (T + o.weight) c' S' (by omega)).post (fun c'' x hx => ?_)
    obtain ⟨S'', h1, h2⟩ := hx
    exact ⟨S'', .cons hstep h1, h2⟩

theorem vplay_spec {A : Allocator} {fA : Nat → Prop} (hA : Sound A fA) (b sz : Nat) (hz : 0 < sz) (ops : List VOp)
    (hfit : ∀ n, 0 < n → n ≤ 2 * weights ops → sz * n < W64 ∧ fA (sz * n)) (h0 : (∃ o ∈ ops, o.mayBeEmpty = true) → fA 0)
    (h1 : b ≠ 0) (h2 : b % 16 = 0) (h3 : b + A.objSize < W64) :
    Triple (bytes b A.objSize) (vplay sz A b ops) (fun c x => ∃ S, Seqs.Run sz ⟨[], []⟩ ops S ∧ VInv hA b sz (weights ops) c S x) := by
  refine Triple.bind (hA.init_spec b h1 h2 h3) (fun s => ?_)
  refine (vrun hA b sz _ hz hfit ops h0 0 _ ⟨[], []⟩ (by omega)).pre (fun x hx => ?_)
  refine ⟨[], rfl, rfl, rfl, fun g hg => by simp at hg, ?_⟩
  show (hA.Inv b s [] ∗ blocksV []) x
  rw [blocksV_nil, star_emp]; exact hx

theorem destroyAll_spec {A : Allocator} {fA : Nat → Prop} (hA : Sound A fA) (b sz T : Nat) (hz : 0 < sz)
    (hW : ∀ n, n ≤ 2 * T → sz * n < W64) (Γ : List Ghost) (hok : ∀ g ∈ Γ, g.Ok sz T) (s : A.St) :
    Triple (Pool hA b s (Γ.flatMap Ghost.own)) (Vecs.destroyAll sz s (Γ.map Ghost.v)) (fun s' => hA.Inv b s' []) := by
  induction Γ generalizing s with
  | nil =>
    refine Triple.pure _ (fun x hx => ?_)
    replace hx : (hA.Inv b s [] ∗ blocksV []) x := hx
    rwa [blocksV_nil, star_emp] at hx
  | cons g Γ ih =>
    have hg := hok g (by simp)
    refine Triple.bind (R := fun s' => Pool hA b s' (Γ.flatMap Ghost.own)) ?_ (fun s' => ih (fun g hg => hok g (by simp [hg])) s')
    rw [List.flatMap_cons]
    exact Vec.destroy_spec hz hg.rep (hW _ hg.cap_le)

theorem vlife_spec {A : Allocator} {fA : Nat → Prop} (hA : Sound A fA) (b sz : Nat) (hz : 0 < sz) (ops : List VOp)
    (hfit : ∀ n, 0 < n → n ≤ 2 * weights ops → sz * n < W64 ∧ fA (sz * n)) (h0 : (∃ o ∈ ops, o.mayBeEmpty = true) → fA 0)
    (h1 : b ≠ 0) (h2 : b % 16 = 0) (h3 : b + A.objSize < W64) :
    Triple (bytes b A.objSize) (vlife sz A b ops) (fun _ => bytes b A.objSize) := by
  refine Triple.bind (vplay_spec hA b sz hz ops hfit h0 h1 h2 h3) (fun c => ?_)
  refine Triple.exists fun S => Triple.and fun _ => Triple.exists fun Γ => Triple.and fun hv => Triple.and fun _ => Triple.and fun _ =>
    Triple.and fun hok => ?_
  rw [hv]
  have hW : ∀ n, n ≤ 2 * weights ops → sz * n < W64 := fun n hn => by
    by_cases h : n = 0
    · subst h; rw [Nat.mul_zero]; decide
    · exact (hfit n (by omega) hn).1
  exact Triple.bind (destroyAll_spec hA b sz _ hz hW Γ hok c.st) (fun s => hA.fini_spec b s)

/-! ### The properties -/

/-- The storage the program may ask for fits in the address space and in the allocator's arithmetic; and it
does not make the empty allocations that some compositions cannot serve (C58). -/
def VSane (t : AllocTy) (sz : Nat) (ops : List VOp) : Prop :=
  sz * (2 * weights ops) + t.margin < 2 ^ 64 ∧ ((∃ o ∈ ops, o.mayBeEmpty = true) → t.noRouting = true)

theorem VSane.fits {t : AllocTy} {sz : Nat} {ops : List VOp} (h : VSane t sz ops) (hwf : t.WF) (hz : 0 < sz) (plat : Plat) :
    (∀ n, 0 < n → n ≤ 2 * weights ops → sz * n < W64 ∧ t.fits plat (sz * n)) ∧ ((∃ o ∈ ops, o.mayBeEmpty = true) → t.fits plat 0) := by
  have h1 := h.1
  refine ⟨fun n hn hle => ?_, fun he => ?_⟩
  · have hm : sz * n ≤ sz * (2 * weights ops) := Nat.mul_le_mul_left _ hle
    have hp : 0 < sz * n := Nat.mul_pos hz hn
    exact ⟨by omega, t.fits_of_margin plat hwf _ hp (by omega)⟩
  · exact t.fits_zero plat hwf (h.2 he) 0 (by omega)

/-- C42 for one allocator with a contract (helper) -/
theorem vector_is_seq_of {A : Allocator} {fA : Nat → Prop} (hA : Sound A fA) (b : Nat) (w : World) (hs : Storage w b A.objSize)
    (sz : Nat) (hz : 0 < sz) (ops : List VOp) 
    (hfit : (∀ n, 0 < n → n ≤ 2 * weights ops → sz * n < W64 ∧ fA (sz * n)) ∧ ((∃ o ∈ ops, o.mayBeEmpty = true) → fA 0)) :
    match vplay sz A b ops w with
    | .ok c w' => ∃ S, Seqs.Run sz ⟨[], []⟩ ops S ∧ c.seen = S.seen ∧ c.vs.length = S.xs.length ∧
        ∀ (i : Nat) (v : Vec) (xs : List (List UInt8)), c.vs[i]? = some v → S.xs[i]? = some xs → v.size sz = xs.length ∧
          ∀ (k : Nat) (e : List UInt8), xs[k]? = some e → e.length = sz ∧ ∀ j, j < sz → w'.heap.b (v.beg + k * sz + j) = e[j]?
    | .oom w' => w'.failed = true
    | .ub => False := by
  obtain ⟨h0, hf, hd, he, hb, hfb, hft⟩ := storage_split hs
  have := vplay_spec hA b sz hz ops hfit.1 hfit.2 hs.1 hs.2.1 hs.2.2.1 w h0 hf hd he hb
  cases hp : vplay sz A b ops w with
  | oom w' => rw [hp] at this; exact this
  | ub => rw [hp] at this; exact this
  | ok c w' =>
    rw [hp] at this
    obtain ⟨⟨h', hd', he', S, hrun, Γ, hv, hx, hseen, hok, hpool⟩, hna⟩ := this
    refine ⟨S, hrun, hseen, by rw [hv, hx]; simp, fun i v xs hi hi' => ?_⟩
    rcases VInv.get hv hx i with ⟨_, h2, _⟩ | ⟨g, h1, h1', h2, h3⟩
    · rw [h2] at hi; cases hi
    · rw [h2] at hi; rw [h3] at hi'
      obtain rfl := Option.some.inj hi
      obtain rfl := Option.some.inj hi'
      have hg := (hok g h1').rep
      refine ⟨hg.size_eq hz, fun k e hk => ?_⟩
      obtain ⟨hk1, rfl⟩ := List.getElem?_eq_some_iff.1 hk
      have hel := hg.elems _ (List.getElem_mem hk1)
      refine ⟨hel, fun j hj => ?_⟩
      have hb0 := hg.pos_of_index hk1
      obtain ⟨g1, g2, hdg, rfl, hI, hB⟩ := hpool
      have hmem : (g.v.beg, g.full) ∈ Γ.flatMap Ghost.own :=
        List.mem_flatMap.2 ⟨g, h1', by unfold Ghost.own; rw [Vec.own_pos hb0]; simp⟩
      have hlt : k * sz + sz ≤ g.xs.length * sz := by
        have := Nat.mul_le_mul_right sz hk1
        rw [Nat.succ_mul] at this; exact this
      have hmul := hg.mul_le
      have hin : k * sz + j < g.full.length := by rw [hg.len]; omega
      have e1 := blocksV_mem hB hmem (k * sz + j) hin
      have e2 : g.full[k * sz + j]? = g.xs[k][j]? := by
        have hsl := hg.slice k 1 hk1
        rw [List.drop_eq_getElem_cons hk1, List.take_succ_cons, List.take_zero, List.flatten_singleton, Nat.one_mul] at hsl
        rw [← hsl, List.getElem?_take_of_lt hj, List.getElem?_drop]
      rw [← e2, List.getElem?_eq_getElem hin, ← e1, he', Nat.add_assoc]
      rcases hdg.1 (g.v.beg + (k * sz + j)) with e | e
      · simp [e, e1]
      · rw [e] at e1; simp at e1

/-- **C42.** A program with any number of vectors — constructed, copied, moved, assigned, grown, shrunk, erased,
written and destroyed in any order, over any allocator composition and any behaviour of malloc — sees exactly
what the same program sees with mathematical sequences, and at the end every vector's `size()` and memory are
those of its sequence. No undefined behaviour; `oom` only if an allocation failed. -/
theorem C42_vector_is_sequence (sys : Sys) (t : AllocTy) (hwf : t.WF) (b : Nat) (w : World) (hs : Storage w b t.size)
    (sz : Nat) (hz : 0 < sz) (ops : List VOp) (hops : VSane t sz ops) :
    match vplay sz (t.denote sys) b ops w with
    | .ok c w' => ∃ S, Seqs.Run sz ⟨[], []⟩ ops S ∧ c.seen = S.seen ∧ c.vs.length = S.xs.length ∧
        ∀ (i : Nat) (v : Vec) (xs : List (List UInt8)), c.vs[i]? = some v → S.xs[i]? = some xs → v.size sz = xs.length ∧
          ∀ (k : Nat) (e : List UInt8), xs[k]? = some e → e.length = sz ∧ ∀ j, j < sz → w'.heap.b (v.beg + k * sz + j) = e[j]?
    | .oom w' => w'.failed = true
    | .ub => False := by
  rw [← t.objSize_eq sys] at hs
  have := vector_is_seq_of (t.sound sys hwf) b w hs sz hz ops (hops.fits hwf hz sys.plat)
  cases hp : vplay sz (t.denote sys) b ops w <;> (rw [hp] at this; exact this)

example : VSane demoTy 8 [.new, .push 0 [1, 2, 3, 4, 5, 6, 7, 8], .pushRange 0 [[0, 0, 0, 0, 0, 0, 0, 1]], .move 0, .resize 1 1, .clear 1] := by
  refine ⟨by decide, ?_⟩
  rintro ⟨o, ho, h⟩
  revert h
  simp only [List.mem_cons, List.not_mem_nil, or_false] at ho
  rcases ho with rfl | rfl | rfl | rfl | rfl | rfl <;> decide

/-- **C43, during the run.** `size() ≤ capacity()` always; the storage blocks of the vectors are aligned and pairwise disjoint,
and nothing outside them and the allocator's own memory is changed. -/
theorem C43_storage_disjoint (sys : Sys) (t : AllocTy) (hwf : t.WF) (b : Nat) (w : World) (hs : Storage w b t.size)
    (sz : Nat) (hz : 0 < sz) (ops : List VOp) (hops : VSane t sz ops) (c : Vecs (t.denote sys)) (w' : World)
    (hrun : vplay sz (t.denote sys) b ops w = .ok c w') :
    (∀ v ∈ c.vs, v.size sz ≤ v.capacity sz ∧ v.fin = v.beg + v.size sz * sz ∧ v.max = v.beg + v.capacity sz * sz ∧ v.beg % 16 = 0 ∧ v.max < 2 ^ 64) ∧
    c.vs.Pairwise (fun u v => ∀ x, ¬ ((u.beg ≤ x ∧ x < u.max) ∧ (v.beg ≤ x ∧ x < v.max))) ∧
    ∀ x e, ¬ (b ≤ x ∧ x < b + t.size) → w.heap.b x = some e →
      w'.heap.b x = some e ∧ ∀ v ∈ c.vs, ¬ (v.beg ≤ x ∧ x < v.max) := by
  obtain ⟨h0, hf, hd, he, hb, hfb, hft⟩ := storage_split hs
  have hfit := hops.fits hwf hz sys.plat
  have := vplay_spec (t.sound sys hwf) b sz hz ops hfit.1 hfit.2 hs.1 hs.2.1 (by rw [t.objSize_eq]; exact hs.2.2.1) w h0 hf hd he
    (by rw [t.objSize_eq]; exact hb)
  rw [hrun] at this
  obtain ⟨⟨h', hd', he', S, _, Γ, hv, hx, hseen, hok, h1, h2, hdp, rfl, hI, hB⟩, hna⟩ := this
  have hin : ∀ g ∈ Γ, ∀ x, g.v.beg ≤ x → x < g.v.max → g.v.beg ≠ 0 ∧ (h2.b x).isSome = true := fun g hg x hx1 hx2 => by
    have hr := (hok g hg).rep
    have hb0 : g.v.beg ≠ 0 := fun h => by have := hr.null h; have := hr.max; rw [‹g.cap = 0›] at this; omega
    refine ⟨hb0, blocksV_isSome hB ⟨(g.v.beg, g.full.length), ?_, hx1, ?_⟩⟩
    · refine List.mem_map.2 ⟨(g.v.beg, g.full), List.mem_flatMap.2 ⟨g, hg, ?_⟩, rfl⟩
      unfold Ghost.own; rw [Vec.own_pos hb0]; simp
    · show x < g.v.beg + g.full.length
      rw [hr.len, ← hr.max]; exact hx2
  refine ⟨fun v hvm => ?_, ?_, fun x e hxs hxe => ?_⟩
  · rw [hv] at hvm
    obtain ⟨g, hg, rfl⟩ := List.mem_map.1 hvm
    have hr := (hok g hg).rep
    rw [hr.size_eq hz, hr.capacity_eq hz]
    refine ⟨hr.le, hr.fin, hr.max, ?_⟩
    by_cases hb0 : g.v.beg = 0
    · rw [hr.max, hb0, hr.null hb0]; simp
    · have := ((t.sound sys hwf).live_good hI (p := g.v.beg) (n := g.full.length) (List.mem_map.2 ⟨(g.v.beg, g.full), List.mem_flatMap.2 ⟨g, hg, by
        unfold Ghost.own; rw [Vec.own_pos hb0]; simp⟩, rfl⟩)).1
      exact ⟨this.2.1, by have := this.2.2; rw [hr.len, ← hr.max] at this; exact this⟩
  · rw [hv]
    have key : ∀ (Δ : List Ghost) (h : Heap), (∀ g ∈ Δ, g ∈ Γ) → blocksV (Δ.flatMap Ghost.own) h →
        (Δ.map Ghost.v).Pairwise (fun u v => ∀ x, ¬ ((u.beg ≤ x ∧ x < u.max) ∧ (v.beg ≤ x ∧ x < v.max))) := by
      intro Δ
      induction Δ with
      | nil => intro _ _ _; exact .nil
      | cons g Δ ih =>
        intro h hsub hbl
        rw [List.flatMap_cons, blocksV_append] at hbl
        obtain ⟨g1, g2, hdg, rfl, hg1, hg2⟩ := hbl
        refine .cons (fun v hvm x hx' => ?_) (ih g2 (fun g' hg' => hsub g' (by simp [hg'])) hg2)
        obtain ⟨g', hg', rfl⟩ := List.mem_map.1 hvm
        have a1 := hin g (hsub g (by simp)) x hx'.1.1 hx'.1.2
        have a2 := hin g' (hsub g' (by simp [hg'])) x hx'.2.1 hx'.2.2
        have r1 := (hok g (hsub g (by simp))).rep
        have r2 := (hok g' (hsub g' (by simp [hg']))).rep
        refine disj_isSome hdg (x := x) (blocksV_isSome hg1 ⟨(g.v.beg, g.full.length), ?_, hx'.1.1, ?_⟩)
          (blocksV_isSome hg2 ⟨(g'.v.beg, g'.full.length), ?_, hx'.2.1, ?_⟩)
        · refine List.mem_map.2 ⟨(g.v.beg, g.full), ?_, rfl⟩
          unfold Ghost.own; rw [Vec.own_pos a1.1]; simp
        · show x < g.v.beg + g.full.length
          rw [r1.len, ← r1.max]; exact hx'.1.2
        · refine List.mem_map.2 ⟨(g'.v.beg, g'.full), List.mem_flatMap.2 ⟨g', hg', ?_⟩, rfl⟩
          unfold Ghost.own; rw [Vec.own_pos a2.1]; simp
        · show x < g'.v.beg + g'.full.length
          rw [r2.len, ← r2.max]; exact hx'.2.2
    exact key Γ h2 (fun _ h => h) hB
  · have e1 : hf.b x = some e := by rw [hfb]; simp only [hxs, if_false]; exact hxe
    refine ⟨?_, fun v hvm hxv => ?_⟩
    · rw [he']
      rcases hd'.1 x with e' | e'
      · show ((h1.add h2).b x).or (hf.b x) = some e
        rw [e', e1]; rfl
      · rw [e'] at e1; cases e1
    · rw [hv] at hvm
      obtain ⟨g, hg, rfl⟩ := List.mem_map.1 hvm
      have := (hin g hg x hxv.1 hxv.2).2
      exact disj_isSome hd' (heap_right_isSome this) (by rw [e1]; rfl)

/-- C43 for one allocator with a contract (helper) -/
theorem vector_no_leak_of {A : Allocator} {fA : Nat → Prop} (hA : Sound A fA) (b : Nat) (w : World) (hs : Storage w b A.objSize)
    (sz : Nat) (hz : 0 < sz) (ops : List VOp) 
    (hfit : (∀ n, 0 < n → n ≤ 2 * weights ops → sz * n < W64 ∧ fA (sz * n)) ∧ ((∃ o ∈ ops, o.mayBeEmpty = true) → fA 0)) :
    match vlife sz (strict A) b ops w with
    | .ok _ w' => (∀ x, ¬ (b ≤ x ∧ x < b + A.objSize) → w'.heap.b x = w.heap.b x) ∧
        (∀ x, b ≤ x → x < b + A.objSize → (w'.heap.b x).isSome = true) ∧ ∀ a, w'.heap.t a = w.heap.t a
    | .oom w' => w'.failed = true
    | .ub => False := by
  obtain ⟨h0, hf, hd, he, hb, hfb, hft⟩ := storage_split hs
  have hsz : (strict A).objSize = A.objSize := rfl
  have := vlife_spec (strict_sound hA) b sz hz ops hfit.1 hfit.2 hs.1 hs.2.1 (by rw [hsz]; exact hs.2.2.1) w h0 hf hd he
    (by rw [hsz]; exact hb)
  cases hp : vlife sz (strict A) b ops w with
  | oom w' => rw [hp] at this; exact this
  | ub => rw [hp] at this; exact this
  | ok c w' =>
    rw [hp] at this
    obtain ⟨⟨h', hd', he', hby⟩, hna⟩ := this
    rw [hsz] at hby
    refine ⟨fun x hx => ?_, fun x h1 h2 => ?_, fun a => ?_⟩
    · have : h'.b x = none := isSome_eq_none.1 (mt (hby.2 x).1 hx)
      rw [he']
      simp only [Heap.add, this, hfb, hx, if_false]; rfl
    · rw [he']
      exact heap_left_isSome ((hby.2 x).2 ⟨h1, h2⟩)
    · rw [he']
      simp only [Heap.add, hby.1 a, hft]; rfl

/-- **C43, sizes and leaks.** Run the program over the same allocator with a ledger that turns every `deallocate` of a
block that was not handed out with that very size, and destruction while a block is out, into undefined behaviour. There
is none: every block is returned exactly once with its size, and when the vectors have been destroyed none is left.
Afterwards memory is as before, up to the contents of the allocator object. -/
theorem C43_no_leak_right_sizes (sys : Sys) (t : AllocTy) (hwf : t.WF) (b : Nat) (w : World) (hs : Storage w b t.size)
    (sz : Nat) (hz : 0 < sz) (ops : List VOp) (hops : VSane t sz ops) :
    match vlife sz (strict (t.denote sys)) b ops w with
    | .ok _ w' => (∀ x, ¬ (b ≤ x ∧ x < b + t.size) → w'.heap.b x = w.heap.b x) ∧
        (∀ x, b ≤ x → x < b + t.size → (w'.heap.b x).isSome = true) ∧ ∀ a, w'.heap.t a = w.heap.t a
    | .oom w' => w'.failed = true
    | .ub => False := by
  rw [← t.objSize_eq sys] at hs ⊢
  have := vector_no_leak_of (t.sound sys hwf) b w hs sz hz ops (hops.fits hwf hz sys.plat)
  cases hp : vlife sz (strict (t.denote sys)) b ops w <;> (rw [hp] at this; exact this)

end KTL
