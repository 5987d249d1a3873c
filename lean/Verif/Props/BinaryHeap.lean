import Verif.Props.BinaryHeapRun
import Verif.Props.VectorAlias

/- C51–C56: `binary_heap`. The specification (`Bags`, `Holds`, `popsLast`, `HSane`) is in `Props/BinaryHeapRun.lean`. -/
namespace KTL
variable {α : Type}

/-! ### Proof machinery: commands that allocate nothing cannot run out of memory -/

/-- the command never runs out of memory -/
def M.NoOom {β : Type} (c : M β) : Prop := ∀ w w', c w ≠ .oom w'

theorem M.NoOom.pure {β : Type} (a : β) : M.NoOom (Pure.pure a : M β) := fun w w' h => by cases h
theorem M.NoOom.ub {β : Type} : M.NoOom (M.ub : M β) := fun w w' h => by cases h
theorem M.NoOom.bind {β γ : Type} {c : M β} {f : β → M γ} (h1 : c.NoOom) (h2 : ∀ a, (f a).NoOom) : (c >>= f).NoOom := fun w w' h => by
  rw [M.bind_apply] at h
  cases hc : c w with
  | ok a w1 => rw [hc] at h; exact h2 a w1 w' h
  | oom w1 => exact h1 w w1 hc
  | ub => rw [hc] at h; cases h
theorem M.NoOom.ite {β : Type} {p : Prop} [Decidable p] {c d : M β} (h1 : c.NoOom) (h2 : d.NoOom) : (if p then c else d).NoOom := by
  split <;> assumption

section
variable {E : Elt α} {o : Objs α} {comp : α → α → Bool}

theorem Elt.at_noOom (p : Nat) : (E.at o p).NoOom := by
  refine M.NoOom.bind (fun w w' => readBytes_not_oom _ _ _ _) (fun bs => ?_)
  split
  · exact .ite (.pure _) .ub
  · exact .ub
theorem Elt.read_noOom (p : Nat) : (E.read o p).NoOom := M.NoOom.bind (E.at_noOom p) (fun _ => .pure _)
theorem Elt.assign_noOom (p : Nat) (v : α) : (E.assign o p v).NoOom :=
  M.NoOom.bind (E.at_noOom p) (fun _ => M.NoOom.bind (fun w w' => writeBytes_not_oom _ _ _ _) (fun _ => .pure _))
theorem Elt.moveOut_noOom (p : Nat) : (E.moveOut o p).NoOom := M.NoOom.bind (E.read_noOom p) (fun _ => M.NoOom.bind (E.assign_noOom _ _) (fun _ => .pure _))
theorem Elt.destroy_noOom (p : Nat) : (E.destroy o p).NoOom := M.NoOom.bind (E.at_noOom p) (fun _ => .ite (.pure _) .ub)

theorem BHeap.better_noOom (beg size c child : Nat) : (BHeap.better E comp beg size o c child).NoOom :=
  .ite (M.NoOom.bind (E.read_noOom _) (fun _ => M.NoOom.bind (E.read_noOom _) (fun _ => .pure _))) (.pure _)

theorem BHeap.downLoop_noOom (beg size fuel parent : Nat) : (BHeap.downLoop E comp beg size fuel parent o).NoOom := by
  induction fuel generalizing parent o with
  | zero => exact .ub
  | succ fuel ih =>
    refine .ite ?_ (.pure _)
    refine M.NoOom.bind (better_noOom _ _ _ _) (fun c => M.NoOom.bind (better_noOom _ _ _ _) (fun child => .ite (.pure _) ?_))
    exact M.NoOom.bind (E.moveOut_noOom _) (fun _ => M.NoOom.bind (E.moveOut_noOom _) (fun _ => M.NoOom.bind (E.assign_noOom _ _) (fun _ =>
      M.NoOom.bind (E.assign_noOom _ _) (fun _ => ih _))))

theorem BHeap.pop_noOom (h : BHeap) : (h.pop E comp o).NoOom := by
  refine M.NoOom.bind (E.read_noOom _) (fun _ => M.NoOom.bind ?_ (fun _ => M.NoOom.bind (E.destroy_noOom _) (fun _ => M.NoOom.bind ?_ (fun _ => .pure _))))
  · exact .ite (M.NoOom.bind (E.read_noOom _) (fun _ => E.assign_noOom _ _)) (M.NoOom.bind (E.moveOut_noOom _) (fun _ => E.assign_noOom _ _))
  · exact M.NoOom.bind (E.read_noOom _) (fun _ => M.NoOom.bind (downLoop_noOom _ _ _ _) (fun _ => E.assign_noOom _ _))
end

/-! ### C56, the false part -/

/-- **C56 is false**: `pop` on a heap with one element, of any type that is not trivial, is undefined behaviour in every state and for
every comparator: the element is destroyed, and then `percolateDown` copies it and assigns to it. -/
theorem C56_false (E : Elt α) (hE : E.trivial = false) (comp : α → α → Bool) (o : Objs α) (h : BHeap) (h1 : h.size = 1) (w : World) :
    h.pop E comp o w = .ub := by
  cases hr : h.pop E comp o w with
  | ub => rfl
  | oom w' => exact absurd hr (BHeap.pop_noOom h w w')
  | ok r w' =>
    unfold BHeap.pop at hr
    obtain ⟨root, w1, q1, hr⟩ := bind_ok hr
    obtain ⟨o1, w2, q2, hr⟩ := bind_ok hr
    obtain ⟨o2, w3, q3, hr⟩ := bind_ok hr
    obtain ⟨o3, w4, q4, hr⟩ := bind_ok hr
    rw [h1] at q3 q4
    unfold Elt.destroy at q3
    obtain ⟨x, w5, q5, q6⟩ := bind_ok q3
    split at q6
    · obtain ⟨rfl, rfl⟩ := pure_ok q6
      unfold BHeap.percolateDown Elt.read Elt.at at q4
      obtain ⟨v, w6, q7, _⟩ := bind_ok q4
      obtain ⟨y, w7, q8, _⟩ := bind_ok q7
      obtain ⟨bs, w8, q9, q10⟩ := bind_ok q8
      unfold Objs.set at q10
      simp only [Nat.sub_self, if_true] at q10
      rw [if_neg (by rw [hE]; simp)] at q10
      cases q10
    · cases q6

/-- A program from a state in order: if it is stopped by undefined behaviour, it popped the last element of a heap whose element type has a
destructor; and if it did that, it does not end. -/
theorem hrun_exact {A : Allocator} {fA : Nat → Prop} (hA : Sound A fA) (b N : Nat) {E : Elt α} (hE : E.Ok) (comp eq : α → α → Bool)
    (hfit : ∀ n, 0 < n → n ≤ 2 * N → E.size * n < W64 ∧ fA (E.size * n)) (ops : List (BOp α)) (h0 : (∃ o ∈ ops, o.mayBeEmpty = true) → fA 0)
    (T : Nat) (ns : List Nat) (c : BHeaps A α) (S : Bags α) (hN : T + hweights ops ≤ N) (w : World) (h hf : Heap) (hd : Heap.disj h hf)
    (he : w.heap = h.add hf) (hI : HInv hA b E comp T ns c S h) :
    match c.run E comp eq ops w with
    | .ok _ _ => E.trivial = true ∨ popsLast ns ops = false
    | .oom w' => w'.failed = true
    | .ub => E.trivial = false ∧ popsLast ns ops = true := by
  induction ops generalizing T c S ns w h hf with
  | nil => exact .inr rfl
  | cons o os ih =>
    simp only [hweights] at hN
    by_cases hp : E.trivial = true ∨ popsLast ns [o] = false
    · have := hstep hA b T N hE comp eq ns c S o hfit (fun h => h0 ⟨o, by simp, h⟩) (by omega) hp w h hf hd he hI
      unfold BHeaps.run
      rw [M.bind_apply]
      cases hr : c.step E comp eq o w with
      | oom w' => rw [hr] at this; exact this
      | ub => rw [hr] at this; exact this.elim
      | ok c' w' =>
        rw [hr] at this
        obtain ⟨⟨h', hd', he', S', _, hI'⟩, _⟩ := this
        have hh := ih (fun ⟨o', ho, h⟩ => h0 ⟨o', by simp [ho], h⟩) (T + o.weight) (o.sizes ns) c' S' (by omega) w' h' hf hd' he' hI'
        simp only
        have hcons : E.trivial = false → popsLast ns (o :: os) = popsLast (o.sizes ns) os := fun ht => by
          have : popsLast ns [o] = false := hp.resolve_left (by rw [ht]; decide)
          simp only [popsLast, Bool.or_false] at this ⊢
          rw [this]; rfl
        cases hr' : c'.run E comp eq os w' with
        | oom w'' => rw [hr'] at hh; exact hh
        | ub => rw [hr'] at hh; exact ⟨hh.1, by rw [hcons hh.1]; exact hh.2⟩
        | ok c'' w'' =>
          rw [hr'] at hh
          cases ht : E.trivial with
          | true => exact .inl rfl
          | false => exact .inr (by rw [hcons ht]; exact hh.resolve_left (by rw [ht]; decide))
    · have ht : E.trivial = false := by cases h : E.trivial with | false => rfl | true => exact absurd (.inl h) hp
      have hp' : popsLast ns [o] = true := by cases h : popsLast ns [o] with | true => rfl | false => exact absurd (.inr h) hp
      have hall : popsLast ns (o :: os) = true := by
        simp only [popsLast, Bool.or_false] at hp' ⊢
        rw [hp']; rfl
      have hub : c.step E comp eq o w = .ub := by
        obtain ⟨Γ, hv, hx, hn, hs, hok, _⟩ := hI
        cases o with
        | pop i =>
          simp only [popsLast, Bool.or_false, beq_iff_eq] at hp'
          rcases HInv.get hv hx hn i with ⟨_, _, _, h4⟩ | ⟨g, _, h1', h2, _, h4⟩
          · rw [h4] at hp'; cases hp'
          · rw [h4] at hp'
            have hsz : g.h.size = 1 := by rw [(hok g h1').ok.size]; exact Option.some.inj hp'
            unfold BHeaps.step
            simp only [h2]
            rw [if_pos (by omega), M.bind_apply, C56_false E ht comp c.objs g.h hsz w]
        | _ => simp [popsLast] at hp'
      unfold BHeaps.run
      rw [M.bind_apply, hub]
      exact ⟨ht, hall⟩

/-- The state after a program, whether it pops last elements or not. -/
theorem hplay_exact (sys : Sys) (t : AllocTy) (hwf : t.WF) {A : Allocator} (hA : Sound A (t.fits sys.plat)) (hsz : A.objSize = t.size) (b : Nat)
    (w : World) (hs : Storage w b t.size) {E : Elt α} (hE : E.Ok) (comp eq : α → α → Bool) (ops : List (BOp α)) (hops : HSane t E ops) :
    match hplay E comp eq A b ops w with
    | .ok _ _ => E.trivial = true ∨ popsLast [] ops = false
    | .oom w' => w'.failed = true
    | .ub => E.trivial = false ∧ popsLast [] ops = true := by
  obtain ⟨h0, hf, hd, he, hb, hfb, hft⟩ := storage_split hs
  have hfit := hops.fits hwf hE sys.plat
  have hi := hA.init_spec b hs.1 hs.2.1 (by rw [hsz]; exact hs.2.2.1) w h0 hf hd he (by rw [hsz]; exact hb)
  unfold hplay
  rw [M.bind_apply]
  cases hr : A.init b w with
  | oom w' => rw [hr] at hi; exact hi
  | ub => rw [hr] at hi; exact hi.elim
  | ok s w1 =>
    rw [hr] at hi
    obtain ⟨⟨h', hd', he', hx⟩, _⟩ := hi
    exact hrun_exact hA b _ hE comp eq hfit.1 ops hfit.2 0 [] { st := s, objs := fun _ => none, hs := [] } ⟨[], []⟩ (by omega) w1 h' hf hd' he'
      ⟨[], rfl, rfl, rfl, rfl, fun g hg => by simp at hg, tpool_start hx⟩

/-! ### C52, C51 -/

/-- **C52.** Every program of heap operations, over every composed allocator and for every element type and comparator
(even one that is no order), behaves as the program with bags of elements: what it sees is what the bags allow, and at the end
each heap has exactly the elements of its bag, in memory, constructed and not destroyed. It only stops early if memory runs out, or
where it pops the last element of a heap of a non-trivial type (`C56_false`); a program that ends has not done the latter. -/
theorem C52_heap_is_bag (sys : Sys) (t : AllocTy) (hwf : t.WF) (b : Nat) (w : World) (hs : Storage w b t.size)
    (E : Elt α) (hE : E.Ok) (comp eq : α → α → Bool) (ops : List (BOp α)) (hops : HSane t E ops) :
    match hplay E comp eq (t.denote sys) b ops w with
    | .ok c w' => (E.trivial = true ∨ popsLast [] ops = false) ∧
        ∃ S, Bags.Run comp eq ⟨[], []⟩ ops S ∧ c.seen = S.seen ∧ c.hs.length = S.xs.length ∧
        ∀ (i : Nat) (h : BHeap) (xs : List α), c.hs[i]? = some h → S.xs[i]? = some xs →
          h.size = xs.length ∧ h.size ≤ h.cap ∧ Holds E c.objs w' h.beg xs
    | .oom w' => w'.failed = true
    | .ub => E.trivial = false ∧ popsLast [] ops = true := by
  have hex := hplay_exact sys t hwf (t.sound sys hwf) (t.objSize_eq sys) b w hs hE comp eq ops hops
  cases hp : hplay E comp eq (t.denote sys) b ops w with
  | oom w' => rw [hp] at hex; exact hex
  | ub => rw [hp] at hex; exact hex
  | ok c w' =>
    rw [hp] at hex
    have := hplay_state sys t hwf (t.sound sys hwf) (t.objSize_eq sys) b w hs hE comp eq ops hops hex
    rw [hp] at this
    obtain ⟨S, ns, h, hf, hrun, hd, he, hI, _⟩ := this
    obtain ⟨h1, h2, h3⟩ := hI.final hE he
    exact ⟨hex, S, hrun, h1, h2, fun i h xs hi hx => by obtain ⟨a, b, c, _⟩ := h3 i h xs hi hx; exact ⟨a, b, c⟩⟩

/-- the final state of a program -/
theorem hplay_ok {sys : Sys} {t : AllocTy} (hwf : t.WF) {A : Allocator} (hA : Sound A (t.fits sys.plat)) (hsz : A.objSize = t.size) {b : Nat} {w : World}
    (hs : Storage w b t.size) {E : Elt α} (hE : E.Ok) {comp eq : α → α → Bool} {ops : List (BOp α)} (hops : HSane t E ops)
    {c : BHeaps A α} {w' : World} (hrun : hplay E comp eq A b ops w = .ok c w') :
    ∃ (S : Bags α) (ns : List Nat) (h hf : Heap), Bags.Run comp eq ⟨[], []⟩ ops S ∧ Heap.disj h hf ∧ w'.heap = h.add hf ∧
        HInv hA b E comp (hweights ops) ns c S h ∧ (∀ x, hf.b x = if b ≤ x ∧ x < b + t.size then none else w.heap.b x) := by
  have hpop := hplay_exact sys t hwf hA hsz b w hs hE comp eq ops hops
  rw [hrun] at hpop
  have := hplay_state sys t hwf hA hsz b w hs hE comp eq ops hops hpop
  rw [hrun] at this; exact this

/-- one heap of the final state -/
theorem hplay_heap {sys : Sys} {t : AllocTy} (hwf : t.WF) {A : Allocator} (hA : Sound A (t.fits sys.plat)) (hsz : A.objSize = t.size) {b : Nat} {w : World}
    (hs : Storage w b t.size) {E : Elt α} (hE : E.Ok) {comp eq : α → α → Bool} {ops : List (BOp α)} (hops : HSane t E ops)
    {c : BHeaps A α} {w' : World} (hrun : hplay E comp eq A b ops w = .ok c w')
    {i : Nat} {h : BHeap} (hi : c.hs[i]? = some h) :
    ∃ xs : List α, h.size = xs.length ∧ Holds E c.objs w' h.beg xs ∧ (StrictWeak comp → HeapOrd comp xs) := by
  obtain ⟨S, ns, g, hf, _, hd, he, hI, _⟩ := hplay_ok hwf hA hsz hs hE hops hrun
  obtain ⟨h1, h2, h3⟩ := hI.final hE he
  have hlt : i < S.xs.length := h2 ▸ (List.getElem?_eq_some_iff.1 hi).1
  obtain ⟨h4, _, h5, h6⟩ := h3 i h _ hi (List.getElem?_eq_getElem hlt)
  exact ⟨_, h4, h5, h6⟩

/-- **C51.** In every reachable state, for every heap that is not empty and every strict weak order, `peek` succeeds
(and changes nothing), and no element of the heap compares before the one it returns. -/
theorem C51_root_extremal (sys : Sys) (t : AllocTy) (hwf : t.WF) (b : Nat) (w : World) (hs : Storage w b t.size)
    (E : Elt α) (hE : E.Ok) (comp eq : α → α → Bool) (hc : StrictWeak comp) (ops : List (BOp α)) (hops : HSane t E ops)
    (c : BHeaps (t.denote sys) α) (w' : World)
    (hrun : hplay E comp eq (t.denote sys) b ops w = .ok c w') (i : Nat) (h : BHeap) (hi : c.hs[i]? = some h) (hne : 0 < h.size) :
    ∃ r, h.peek E c.objs w' = .ok r w' ∧
      (∃ k, k < h.size ∧ E.read c.objs (h.beg + k * E.size) w' = .ok r w') ∧
      ∀ k, k < h.size → ∃ x, E.read c.objs (h.beg + k * E.size) w' = .ok x w' ∧ comp x r = false := by
  obtain ⟨xs, h1, h2, h3⟩ := hplay_heap hwf (t.sound sys hwf) (t.objSize_eq sys) hs hE hops hrun hi
  rw [h1] at hne ⊢
  have hr0 : E.read c.objs (h.beg + 0 * E.size) w' = .ok xs[0] w' := h2.read hE (List.getElem?_eq_getElem hne)
  refine ⟨xs[0], ?_, ⟨0, hne, hr0⟩, fun k hk => ⟨xs[k], h2.read hE (List.getElem?_eq_getElem hk), ?_⟩⟩
  · rw [Nat.zero_mul, Nat.add_zero] at hr0; exact hr0
  · exact (h3 hc).root hc k _ _ (List.getElem?_eq_getElem hne) (List.getElem?_eq_getElem hk)

/-! ### C53 -/

/-- popping `m` times, on the specification -/
theorem Bags.Run.pops {comp eq : α → α → Bool} (hc : StrictWeak comp) {i m : Nat} {c c' : Bags α} {xs : List α}
    (h : Bags.Run comp eq c (List.replicate m (.pop i)) c') (hi : c.xs[i]? = some xs) (hm : m ≤ xs.length) :
    ∃ vs rest : List α, c'.seen = c.seen ++ vs.map .elem ∧ vs.length = m ∧ (vs ++ rest).Perm xs ∧ c'.xs = c.xs.set i rest ∧
      vs.Pairwise (fun x y => comp y x = false) ∧ ∀ v ∈ vs, ∀ r ∈ rest, comp r v = false := by
  induction m generalizing c xs with
  | zero =>
    cases h
    exact ⟨[], xs, by simp, rfl, .refl _, by rw [set_same hi], .nil, fun v hv => by simp at hv⟩
  | succ m ih =>
    cases h with
    | cons h1 h2 =>
      unfold Bags.Step at h1
      simp only [hi] at h1
      cases xs with
      | nil => simp at hm
      | cons v ys =>
        obtain ⟨hv, zs, hz, rfl⟩ := h1
        have hlt := (List.getElem?_eq_some_iff.1 hi).1
        obtain ⟨vs, rest, k1, k2, k3, k4, k5, k6⟩ := ih h2 (xs := zs) (by simp [List.getElem?_set_self hlt])
          (by rw [hz.length_eq]; simpa using hm)
        have hmem : ∀ x ∈ vs ++ rest, comp x v = false := fun x hx => hv hc x (List.mem_cons_of_mem _ ((k3.trans hz).mem_iff.1 hx))
        refine ⟨v :: vs, rest, by simp [k1], by simp [k2], (k3.trans hz).cons v, by simp [k4], List.pairwise_cons.2 ⟨fun x hx => hmem x (by simp [hx]), k5⟩, ?_⟩
        intro x hx r hr
        rcases List.mem_cons.1 hx with rfl | hx
        · exact hmem r (by simp [hr])
        · exact k6 x hx r hr

theorem hweights_append (a b : List (BOp α)) : hweights (a ++ b) = hweights a + hweights b := by
  induction a with
  | nil => simp [hweights]
  | cons o a ih => simp only [List.cons_append, hweights, ih]; omega

theorem hweights_pops (i m : Nat) : hweights (List.replicate m (.pop i : BOp α)) = 0 := by
  induction m with
  | zero => rfl
  | succ m ih => rw [List.replicate_succ, hweights, ih]; rfl

theorem popsLast_pops {i m n : Nat} {ns : List Nat} (hi : ns[i]? = some n) (hm : m < n) : popsLast ns (List.replicate m (.pop i : BOp α)) = false := by
  induction m generalizing ns n with
  | zero => rfl
  | succ m ih =>
    have hlt := (List.getElem?_eq_some_iff.1 hi).1
    rw [List.replicate_succ, popsLast, ih (n := n - 1) (by simp only [BOp.sizes, hi]; rw [List.getElem?_set_self hlt]) (by omega), hi, Bool.or_false]
    simp only [beq_eq_false_iff_ne]
    intro h; have := Option.some.inj h; omega

theorem BHeaps.pops_noOom {E : Elt α} {comp eq : α → α → Bool} {A : Allocator} (c : BHeaps A α) (i m : Nat) :
    (c.run E comp eq (List.replicate m (.pop i))).NoOom := by
  induction m generalizing c with
  | zero => exact .pure _
  | succ m ih =>
    refine M.NoOom.bind ?_ (fun c' => ih c')
    show M.NoOom (match c.hs[i]? with
    | some h =>
      if 0 < h.size then do
        let r ← h.pop E comp c.objs
        pure { c with objs := r.2.1, hs := c.hs.set i r.2.2, seen := c.seen ++ [.elem r.1] }
      else pure c
    | none => pure c)
    split
    · exact .ite (M.NoOom.bind (BHeap.pop_noOom _) (fun _ => .pure _)) (.pure _)
    · exact .pure _

/-- **C53, partial.** In every reachable state, popping `m` elements off a heap of a strict weak order always succeeds and yields
elements `vs` in the order of the comparator; together with the elements that are left afterwards they are the elements the heap
had, and none that is left compares before one that has been popped. With `m` all elements (`rest` is empty then) this is heap sort.
Missing: popping the last element of a heap of a non-trivial type. -/
theorem C53_popping_sorts_partial (sys : Sys) (t : AllocTy) (hwf : t.WF) (b : Nat) (w : World) (hs : Storage w b t.size)
    (E : Elt α) (hE : E.Ok) (comp eq : α → α → Bool) (hc : StrictWeak comp) (ops : List (BOp α)) (hops : HSane t E ops)
    (c : BHeaps (t.denote sys) α) (w' : World)
    (hrun : hplay E comp eq (t.denote sys) b ops w = .ok c w') (i : Nat) (h : BHeap) (hi : c.hs[i]? = some h)
    (m : Nat) (hm : m ≤ h.size) (hlast : E.trivial = true ∨ m < h.size) :
    ∃ (c' : BHeaps (t.denote sys) α) (w'' : World) (h' : BHeap) (xs vs rest : List α),
      c.run E comp eq (List.replicate m (.pop i)) w' = .ok c' w'' ∧
      xs.length = h.size ∧ Holds E c.objs w' h.beg xs ∧
      c'.seen = c.seen ++ vs.map .elem ∧ vs.length = m ∧
      c'.hs[i]? = some h' ∧ h'.size = rest.length ∧ Holds E c'.objs w'' h'.beg rest ∧
      (vs ++ rest).Perm xs ∧ vs.Pairwise (fun x y => comp y x = false) ∧ ∀ v ∈ vs, ∀ r ∈ rest, comp r v = false := by
  obtain ⟨S, ns, g, hf, _, hd, he, hI, _⟩ := hplay_ok hwf (t.sound sys hwf) (t.objSize_eq sys) hs hE hops hrun
  have hfin := hI.final hE he
  have hlt : i < S.xs.length := hfin.2.1 ▸ (List.getElem?_eq_some_iff.1 hi).1
  obtain ⟨h4, _, h5, _⟩ := hfin.2.2 i h _ hi (List.getElem?_eq_getElem hlt)
  have hns : ns[i]? = some h.size := by
    obtain ⟨Γ, hv, hx, hn, _, hok, _⟩ := hI
    rcases HInv.get hv hx hn i with ⟨_, h2, _⟩ | ⟨g, h1, h1', h2, h3, h3'⟩
    · rw [h2] at hi; cases hi
    · rw [h2] at hi
      obtain rfl := Option.some.inj hi
      rw [h3', (hok g h1').ok.size]
  have hfit := hops.fits hwf hE sys.plat
  have key := KTL.hrun (t.sound sys hwf) b (hweights ops) hE comp eq hfit.1 (List.replicate m (.pop i)) (fun ⟨o, ho, h⟩ => by
      rw [List.eq_of_mem_replicate ho] at h; cases h) (hweights ops) ns (hlast.imp id fun h => popsLast_pops hns h) c S (by rw [hweights_pops]; omega)
    w' g hf hd he hI
  cases hr : c.run E comp eq (List.replicate m (.pop i)) w' with
  | oom w'' => exact absurd hr (BHeaps.pops_noOom c i m w' w'')
  | ub => rw [hr] at key; exact key.elim
  | ok c' w'' =>
    rw [hr] at key
    obtain ⟨⟨g', hd', he', S', hrun', ns', hI'⟩, _⟩ := key
    have hfin' := hI'.final hE he'
    obtain ⟨vs, rest, k1, k2, k3, k4, k5, k6⟩ := hrun'.pops hc (List.getElem?_eq_getElem hlt) (by rw [← h4]; exact hm)
    have hx' : S'.xs[i]? = some rest := by rw [k4, List.getElem?_set_self hlt]
    have hlt' : i < c'.hs.length := hfin'.2.1 ▸ (List.getElem?_eq_some_iff.1 hx').1
    obtain ⟨j1, _, j2, _⟩ := hfin'.2.2 i _ rest (List.getElem?_eq_getElem hlt') hx'
    exact ⟨c', w'', c'.hs[i], S.xs[i], vs, rest, rfl, h4.symm, h5, by rw [hfin'.1, k1, hfin.1], k2, List.getElem?_eq_getElem hlt', j1, j2, k3, k5, k6⟩

/-! ### C54, C55 -/

/-- **C54.** In every reachable state, `insert` of a value gives an iterator inside the heap, and the element it refers to is the
inserted one; the heap has one element more. -/
theorem C54_insert_iterator (sys : Sys) (t : AllocTy) (hwf : t.WF) (b : Nat) (w : World) (hs : Storage w b t.size)
    (E : Elt α) (hE : E.Ok) (comp eq : α → α → Bool) (ops : List (BOp α)) (i : Nat) (v : α) (hops : HSane t E (ops ++ [.insert i v]))
    (c : BHeaps (t.denote sys) α) (w' : World)
    (hrun : hplay E comp eq (t.denote sys) b ops w = .ok c w') (h : BHeap) (hi : c.hs[i]? = some h) :
    match h.insert E comp (t.denote sys) c.st c.objs (.val v) w' with
    | .ok (p, _, o, h') w'' => h'.size = h.size + 1 ∧ (∃ k, k < h'.size ∧ p = h'.beg + k * E.size) ∧ E.read o p w'' = .ok v w''
    | .oom w'' => w''.failed = true
    | .ub => False := by
  have hw := hweights_append ops [.insert i v]
  replace hw : hweights (ops ++ [.insert i v]) = hweights ops + 1 := hw
  have hops' : HSane t E ops := by
    refine ⟨?_, fun ⟨o, ho, h⟩ => hops.2 ⟨o, by simp [ho], h⟩⟩
    have h1 := hops.1
    rw [hw, Nat.mul_add, Nat.mul_add] at h1
    omega
  obtain ⟨S, ns, g, hf, _, hd, he, hI, _⟩ := hplay_ok hwf (t.sound sys hwf) (t.objSize_eq sys) hs hE hops' hrun
  obtain ⟨Γ, hv, hx, hn, _, hok, hp⟩ := hI
  rcases HInv.get hv hx hn i with ⟨_, h2, _⟩ | ⟨g, h1, h1', h2, h3, h3'⟩
  · rw [h2] at hi; cases hi
  · rw [h2] at hi
    obtain rfl := Option.some.inj hi
    have hg := hok g h1'
    have hfit := (hops.fits hwf hE sys.plat).1
    rw [hw] at hfit
    rw [TPool.perm (hown_perm h1)] at hp
    have hcap := hg.cap_le
    have hsz := hg.size_le
    have key := BHeap.insert_spec (hA := t.sound sys hwf) (b := b) (s := c.st) (o := c.objs) (Γ := (Γ.eraseIdx i).flatMap HGhost.own) (comp := comp) hE hg.ok
      (by
        by_cases h0 : g.h.cap = 0
        · rw [h0, Nat.mul_zero]; decide
        · exact (hfit g.h.cap (by omega) (by omega)).1)
      (.inl (HArg.is_val v)) (fun h => (hfit _ (by omega) (by omega)).2) (fun h => (hfit _ (by omega) (by omega)).1) w' _ hf hd he hp
    cases hr : g.h.insert E comp (t.denote sys) c.st c.objs (.val v) w' with
    | oom w'' => rw [hr] at key; exact key
    | ub => rw [hr] at key; exact key
    | ok r w'' =>
      rw [hr] at key
      obtain ⟨⟨x', hd', he', g', k1, k2, k3, ⟨k, k4, k5⟩, _, _, k6⟩, _⟩ := key
      obtain ⟨p, s', o', h'⟩ := r
      replace k1 : g'.h = h' := k1
      replace k5 : p = g'.h.beg + k * E.size := k5
      subst k1
      have hlt := (List.getElem?_eq_some_iff.1 k4).1
      have hl := k3.length_eq
      refine ⟨?_, ⟨k, by rw [k2.size]; exact hlt, k5⟩, ?_⟩
      · show g'.h.size = g.h.size + 1
        rw [k2.size, hg.ok.size, hl]; simp
      · have hb := k2.pos (by omega)
        rw [HGhost.own_pos hb] at k6
        have : Holds E o' w'' g'.h.beg g'.xs := TPool.holds hE k6 he' (rest := g'.rest) (by simp)
        rw [k5]
        exact this.read hE k4

theorem BHeap.find_eq {E : Elt α} (hE : E.Ok) {o : Objs α} {w : World} {q : Nat} (eq : α → Bool) (xs pre : List α) (h : Holds E o w q (pre ++ xs)) :
    BHeap.find E eq o q pre.length xs.length w = .ok (pre.length + xs.findIdx eq) w := by
  induction xs generalizing pre with
  | nil => rfl
  | cons x xs ih =>
    show (E.read o (q + pre.length * E.size) >>= fun x => if eq x then pure pre.length else BHeap.find E eq o q (pre.length + 1) xs.length) w = _
    rw [M.bind_apply, h.read hE (get_mid ..), List.findIdx_cons]
    dsimp only
    cases he : eq x with
    | true => rfl
    | false =>
      have := ih (pre ++ [x]) (by rw [List.append_assoc]; exact h)
      rw [List.length_append] at this
      simp only [Bool.false_eq_true, if_false, cond_false]
      rw [show pre.length + (xs.findIdx eq + 1) = pre.length + 1 + xs.findIdx eq by omega]
      exact this

/-- **C55.** In every reachable state, `find` succeeds and changes nothing; its result is the position of the first element
that is equal to the value, or the end if there is none. -/
theorem C55_find (sys : Sys) (t : AllocTy) (hwf : t.WF) (b : Nat) (w : World) (hs : Storage w b t.size)
    (E : Elt α) (hE : E.Ok) (comp eq : α → α → Bool) (ops : List (BOp α)) (hops : HSane t E ops)
    (c : BHeaps (t.denote sys) α) (w' : World)
    (hrun : hplay E comp eq (t.denote sys) b ops w = .ok c w') (i : Nat) (h : BHeap) (hi : c.hs[i]? = some h) (v : α) :
    ∃ k, BHeap.find E (fun x => eq x v) c.objs h.beg 0 h.size w' = .ok k w' ∧ k ≤ h.size ∧
      (∀ j, j < k → ∃ x, E.read c.objs (h.beg + j * E.size) w' = .ok x w' ∧ eq x v = false) ∧
      (k < h.size → ∃ x, E.read c.objs (h.beg + k * E.size) w' = .ok x w' ∧ eq x v = true) := by
  obtain ⟨xs, h1, h2, h3⟩ := hplay_heap hwf (t.sound sys hwf) (t.objSize_eq sys) hs hE hops hrun hi
  have hf := BHeap.find_eq hE (fun x => eq x v) xs [] h2
  rw [h1]
  refine ⟨xs.findIdx fun x => eq x v, by simpa using hf, List.findIdx_le_length, fun j hj => ?_, fun hk => ?_⟩
  · have hlt : j < xs.length := Nat.lt_of_lt_of_le hj List.findIdx_le_length
    exact ⟨xs[j], h2.read hE (List.getElem?_eq_getElem hlt), by simpa using List.not_of_lt_findIdx hj⟩
  · exact ⟨xs[_], h2.read hE (List.getElem?_eq_getElem hk), List.findIdx_getElem (w := hk)⟩

/-! ### C56 -/

/-- **C56, partial.** Every program of heap operations respects the lifetimes of its elements, for every element type: the model has
undefined behaviour when an object is used (read, compared, moved from, assigned to or destroyed) that has not been constructed or has
been destroyed, and when a live object is overwritten by construction or its storage is given back. At the end, after destruction of
the heaps, there are no objects left, and all memory has been given back, with the sizes it was allocated with (ledger of C43).
Missing: popping the last element of a heap of a non-trivial type, for which it is false (`C56_false`). -/
theorem C56_lifetimes_partial (sys : Sys) (t : AllocTy) (hwf : t.WF) (b : Nat) (w : World) (hs : Storage w b t.size)
    (E : Elt α) (hE : E.Ok) (comp eq : α → α → Bool) (ops : List (BOp α)) (hops : HSane t E ops)
    (hpop : E.trivial = true ∨ popsLast [] ops = false) :
    match hlife E comp eq (strict (t.denote sys)) b ops w with
    | .ok o w' => (∀ p, o p = none) ∧ (∀ x, ¬ (b ≤ x ∧ x < b + t.size) → w'.heap.b x = w.heap.b x) ∧
        (∀ x, b ≤ x → x < b + t.size → (w'.heap.b x).isSome = true) ∧ ∀ a, w'.heap.t a = w.heap.t a
    | .oom w' => w'.failed = true
    | .ub => False := by
  obtain ⟨h0, hf, hd, he, hb, hfb, hft⟩ := storage_split hs
  have hfit := hops.fits hwf hE sys.plat
  have hsz : (strict (t.denote sys)).objSize = t.size := t.objSize_eq sys
  have := hlife_spec (strict_sound (t.sound sys hwf)) b hE comp eq ops hfit.1 hfit.2 hpop hs.1 hs.2.1 (by rw [hsz]; exact hs.2.2.1) w h0 hf hd he
    (by rw [hsz]; exact hb)
  cases hp : hlife E comp eq (strict (t.denote sys)) b ops w with
  | oom w' => rw [hp] at this; exact this
  | ub => rw [hp] at this; exact this
  | ok o w' =>
    rw [hp] at this
    obtain ⟨⟨h', hd', he', hnone, hby⟩, hna⟩ := this
    rw [hsz] at hby
    refine ⟨hnone, fun x hx => ?_, fun x h1 h2 => ?_, fun a => ?_⟩
    · have : h'.b x = none := isSome_eq_none.1 (mt (hby.2 x).1 hx)
      rw [he']
      simp only [Heap.add, this, hfb, hx, if_false]; rfl
    · rw [he']
      exact heap_left_isSome ((hby.2 x).2 ⟨h1, h2⟩)
    · rw [he']
      simp only [Heap.add, hby.1 a, hft]; rfl

/-- **C56, exactly**: popping the last element of a heap of a non-trivial type is the only way to violate a lifetime, and every program that does
it violates one: it does not end (unless memory runs out before). -/
theorem C56_exact (sys : Sys) (t : AllocTy) (hwf : t.WF) (b : Nat) (w : World) (hs : Storage w b t.size)
    (E : Elt α) (hE : E.Ok) (comp eq : α → α → Bool) (ops : List (BOp α)) (hops : HSane t E ops) :
    match hlife E comp eq (strict (t.denote sys)) b ops w with
    | .ok _ _ => E.trivial = true ∨ popsLast [] ops = false
    | .oom w' => w'.failed = true
    | .ub => E.trivial = false ∧ popsLast [] ops = true := by
  by_cases hpop : E.trivial = true ∨ popsLast [] ops = false
  · have := C56_lifetimes_partial sys t hwf b w hs E hE comp eq ops hops hpop
    cases hp : hlife E comp eq (strict (t.denote sys)) b ops w with
    | oom w' => rw [hp] at this; exact this
    | ub => rw [hp] at this; exact this.elim
    | ok c w' => exact hpop
  · have := hplay_exact sys t hwf (strict_sound (t.sound sys hwf)) (t.objSize_eq sys) b w hs hE comp eq ops hops
    unfold hlife
    rw [M.bind_apply]
    cases hp : hplay E comp eq (strict (t.denote sys)) b ops w with
    | oom w' => rw [hp] at this; exact this
    | ub => rw [hp] at this; exact this
    | ok c w' => rw [hp] at this; exact absurd this hpop

/-! ### The hypotheses are met -/

/-- A non-trivial element type of two bytes. -/
def demoElt : Elt UInt8 := ⟨2, fun v => [v, v + 1], fun _ => 0, fun _ => 0, false⟩
/-- Bytes. -/
def demoByte : Elt UInt8 := ⟨1, fun v => [v], id, id, true⟩

theorem demoElt_ok : demoElt.Ok := ⟨by decide, fun _ => rfl⟩
theorem demoByte_ok : demoByte.Ok := ⟨by decide, fun _ => rfl⟩

/-- `std::less` on bytes -/
def demoLess (a b : UInt8) : Bool := decide (a < b)
theorem demoLess_weak : StrictWeak demoLess := by
  refine ⟨fun a => ?_, fun a b c h1 h2 => ?_, fun a b c h1 h2 h3 h4 => ?_⟩ <;>
    simp only [demoLess, decide_eq_true_eq, decide_eq_false_iff_not, UInt8.lt_iff_toNat_lt] at * <;> omega

def demoHeapOps : List (BOp UInt8) :=
  [.newList [5, 3, 9, 1], .new, .insert 1 7, .insertFrom 1 0 2, .pop 0, .reserve 0 9, .peek 0, .find 0 9, .insert 0 2, .move 0, .pop 2, .clear 1, .insert 1 8]

example : HSane demoTy demoElt demoHeapOps := by
  refine ⟨by decide, ?_⟩
  rintro ⟨o, ho, h⟩
  revert h
  simp only [demoHeapOps, List.mem_cons, List.not_mem_nil, or_false] at ho
  rcases ho with rfl | rfl | rfl | rfl | rfl | rfl | rfl | rfl | rfl | rfl | rfl | rfl | rfl <;> decide
example : popsLast [] demoHeapOps = false := by decide
/-- copies and the last element, over malloc -/
example : HSane .mallocator demoByte [.newList [5, 3], .copy 0, .pop 0, .pop 0, .copyAssign 0 1, .newList []] := ⟨by decide, fun _ => rfl⟩

/-- the program runs -/
example : ((hplay demoElt demoLess (fun a b => a == b) (mallocator (demoSys .direct)) 4096 demoHeapOps (demoWorld 0)).test fun c _ =>
    decide (c.seen = [.elem 7, .elem 1, .elem 3, .found true, .elem 2, .elem 2, .elem 8] ∧ c.hs.map BHeap.size = [0, 1, 3])) = true := by decide +kernel

/-- heap sort -/
example : ((hplay demoByte demoLess (fun a b => a == b) (mallocator (demoSys .direct)) 4096
    ([.newList [5, 3, 9, 1, 5]] ++ List.replicate 5 (.pop 0)) (demoWorld 0)).test fun c _ =>
    decide (c.seen = [.elem 1, .elem 3, .elem 5, .elem 5, .elem 9])) = true := by decide +kernel

/-- C56 is false: the smallest program. -/
theorem C56_false_program : (hplay demoElt demoLess (fun a b => a == b) (mallocator (demoSys .direct)) 4096 [.newList [5], .pop 0] (demoWorld 0)).isUB = true := by
  decide +kernel

end KTL
