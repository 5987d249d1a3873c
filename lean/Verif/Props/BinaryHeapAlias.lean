import Verif.Props.TwoPools

/- C46–C48, C61, C62 for `binary_heap`: self assignment, other allocators, insertion of its own element. -/
namespace KTL
variable {α : Type}

theorem heap_mem {A : Allocator} {fA : Nat → Prop} {hA : Sound A fA} {b T : Nat} {E : Elt α} {comp : α → α → Bool} {ns : List Nat}
    {c : BHeaps A α} {S : Bags α} {x : Heap} (hI : HInv hA b E comp T ns c S x) {i : Nat} {h : BHeap} (hi : c.hs[i]? = some h) :
    ∃ (g : HGhost α) (Δ : List (Nat × Slots α)), g.h = h ∧ g.Fine comp T ∧ TPool hA b E c.st c.objs (g.own ++ Δ) x := by
  obtain ⟨Γ, hv, hx, hn, _, hok, hp⟩ := hI
  rcases HInv.get hv hx hn i with ⟨_, h2, _⟩ | ⟨g, h1, h1', h2, h3, h3'⟩
  · rw [h2] at hi; cases hi
  · rw [h2] at hi
    rw [TPool.perm (hown_perm h1)] at hp
    exact ⟨g, _, Option.some.inj hi, hok g h1', hp⟩

/-- an object that is not there cannot be read -/
theorem Elt.read_none {E : Elt α} {o : Objs α} {p : Nat} (h : o p = none) (w : World) (v : α) (w' : World) : E.read o p w ≠ .ok v w' := by
  intro hr
  unfold Elt.read Elt.at at hr
  obtain ⟨y, w1, q1, _⟩ := bind_ok hr
  obtain ⟨bs, w2, _, q2⟩ := bind_ok q1
  simp only [h] at q2
  cases q2

/-- the conditional bound as one command -/
theorem BHeap.moveWith_eq {E : Elt α} {o : Objs α} {A B : Allocator} {s : A.St} {t : B.St} (h : BHeap) : h.moveWith E A s B t o = (do
    let r ← h.copy E B t o
    let x ← (if h.beg ≠ 0 then E.dealloc A s r.2.1 h.beg (mulW h.cap E.size) else pure (s, r.2.1) : M (A.St × Objs α))
    pure (x.1, r.1, x.2, r.2.2)) := by
  unfold BHeap.moveWith BHeap.copy
  split
  · simp only [bind_assoc, pure_bind]
  · simp only [bind_assoc, pure_bind]

/-! ### C46 -/

/-- **C46 is false** for every binary heap that is not empty: in every reachable state, `h = h` never completes (it constructs the
elements of the new block from those of the new block, where there are none). -/
theorem C46_false_heap (sys : Sys) (t : AllocTy) (hwf : t.WF) (b : Nat) (w : World) (hs : Storage w b t.size)
    (E : Elt α) (hE : E.Ok) (comp eq : α → α → Bool) (ops : List (BOp α)) (hops : HSane t E ops)
    (c : BHeaps (t.denote sys) α) (w' : World)
    (hrun : hplay E comp eq (t.denote sys) b ops w = .ok c w') (i : Nat) (h : BHeap) (hi : c.hs[i]? = some h) (hne : 0 < h.size)
    (c' : BHeaps (t.denote sys) α) (w'' : World) : c.copyAssign E i i w' ≠ .ok c' w'' := by
  intro hr
  obtain ⟨S, ns, g0, hf, _, hd, he, hI, _⟩ := hplay_ok hwf (t.sound sys hwf) (t.objSize_eq sys) hs hE hops hrun
  obtain ⟨g, Δ, rfl, hg, hp⟩ := heap_mem hI hi
  have hlen : i < c.hs.length := (List.getElem?_eq_some_iff.1 hi).1
  have hfit := (hops.fits hwf hE sys.plat).1
  have hsz := hg.ok.size
  have hcap := hg.ok.cap
  have hle := hg.cap_le
  have hle' := hg.size_le
  unfold BHeaps.copyAssign at hr
  simp only [hi] at hr
  obtain ⟨x, w1, h1, hr⟩ := bind_ok hr
  obtain ⟨r, w2, h3, hr⟩ := bind_ok hr
  obtain ⟨o', w3, h5, _⟩ := bind_ok hr
  rw [List.getElem?_set_self hlen] at h5
  replace h5 : BHeap.copyAll E r.1 r.1 0 g.h.size x.2 w2 = .ok o' w3 := h5
  have k1 := BHeap.destroy_spec hE hg.ok (hfit g.h.cap (by omega) hle).1 w' g0 hf hd he hp
  rw [h1] at k1
  obtain ⟨⟨y1, hd1, he1, hp1⟩, _⟩ := k1
  have hb := hfit g.xs.length (by omega) (by omega)
  have k2 := triple_tgrab hE g.xs.length hb.2 hb.1 w1 y1 hf hd1 he1 hp1
  rw [← hsz, h3] at k2
  obtain ⟨⟨y2, hd2, he2, hp2⟩, _⟩ := k2
  rcases hp2 with ⟨_, h0, _⟩ | ⟨_, hp2⟩
  · omega
  · obtain ⟨R, _, ha, hkn, _⟩ := hp2
    have hnone : x.2 (r.1 + 0 * E.size) = none := hkn.head hE ha (by rw [List.getElem?_replicate, if_pos hne])
    rw [show g.h.size = g.h.size - 1 + 1 by omega] at h5
    unfold BHeap.copyAll at h5
    obtain ⟨v, w4, h6, _⟩ := bind_ok h5
    exact Elt.read_none hnone _ _ _ h6

/-- **C46, partial**: assigning an empty heap to itself leaves it empty and the others unchanged. Missing: all other
heaps, for which the property is false (`C46_false_heap`). -/
theorem C46_empty_heap_partial (sys : Sys) (t : AllocTy) (hwf : t.WF) (hrt : t.noRouting = true) (b : Nat) (w : World) (hs : Storage w b t.size)
    (E : Elt α) (hE : E.Ok) (comp eq : α → α → Bool) (ops : List (BOp α)) (hops : HSane t E ops)
    (c : BHeaps (t.denote sys) α) (w' : World)
    (hrun : hplay E comp eq (t.denote sys) b ops w = .ok c w') (i : Nat) (h : BHeap) (hi : c.hs[i]? = some h) (hz : h.size = 0) :
    match c.copyAssign E i i w' with
    | .ok c' _ => ∃ h', c'.hs = c.hs.set i h' ∧ h'.size = 0
    | .oom w'' => w''.failed = true
    | .ub => False := by
  obtain ⟨S, ns, g0, hf, _, hd, he, hI, _⟩ := hplay_ok hwf (t.sound sys hwf) (t.objSize_eq sys) hs hE hops hrun
  obtain ⟨g, Δ, rfl, hg, hp⟩ := heap_mem hI hi
  have hfit := (hops.fits hwf hE sys.plat).1
  have hle := hg.cap_le
  have hfits : t.fits sys.plat (E.size * 0) := by
    have := hops.1
    rw [Nat.mul_zero]; exact t.fits_zero sys.plat hwf hrt 0 (by omega)
  have key : Triple (TPool (t.sound sys hwf) b E c.st c.objs (g.own ++ Δ)) (c.copyAssign E i i) (fun c' _ => ∃ h', c'.hs = c.hs.set i h' ∧ h'.size = 0) := by
    unfold BHeaps.copyAssign
    simp only [hi, hz]
    refine Triple.bind (BHeap.destroy_spec hE hg.ok (by
      by_cases h0 : g.h.cap = 0
      · rw [h0, Nat.mul_zero]; decide
      · exact (hfit g.h.cap (by omega) hle).1)) (fun x => ?_)
    refine Triple.bind (triple_tgrab hE 0 hfits (by rw [Nat.mul_zero]; decide)) (fun r => ?_)
    refine Triple.bind (R := fun _ _ => True) (Triple.pure _ (fun _ _ => trivial)) (fun o' => Triple.pure _ (fun x _ => ⟨_, rfl, rfl⟩))
  have := key w' _ hf hd he hp
  cases hr : c.copyAssign E i i w' with
  | ok c' w'' => rw [hr] at this; obtain ⟨⟨_, _, _, hx⟩, _⟩ := this; exact hx
  | oom w'' => rw [hr] at this; exact this
  | ub => rw [hr] at this; exact this

/-! ### C48, C47: another allocator -/

/-- The state after a program over the first allocator and construction of the second. -/
theorem two_heaps (sys : Sys) (t u : AllocTy) (hwf : t.WF) (hwf' : u.WF) {A : Allocator} (hA : Sound A (t.fits sys.plat)) (hsz : A.objSize = t.size) {b b' : Nat}
    {w : World} (hs : Storage w b t.size) (hs' : Storage w b' u.size) (hdis : b + t.size ≤ b' ∨ b' + u.size ≤ b)
    {E : Elt α} (hE : E.Ok) {comp eq : α → α → Bool} {ops : List (BOp α)} (hops : HSane t E ops)
    {c : BHeaps A α} {w' : World}
    (hrun : hplay E comp eq A b ops w = .ok c w') {i : Nat} {h : BHeap} (hi : c.hs[i]? = some h) :
    ∃ (g : HGhost α) (Δ : List (Nat × Slots α)) (L : List (Nat × Nat)), g.h = h ∧ g.Fine comp (hweights ops) ∧ Holds E c.objs w' h.beg g.xs ∧
      (h.beg ≠ 0 → (h.beg, h.cap * E.size) ∈ L) ∧
      ∀ {β : Type} (f : (u.denote sys).St → M β) (Q : β → HProp),
        (∀ s, Triple (TStore (Two hA b c.st (u.sound sys hwf') b' s L) E c.objs (g.own ++ Δ)) (f s) Q) →
        match ((u.denote sys).init b' >>= f) w' with
        | .ok r w'' => ∃ x hf, Heap.disj x hf ∧ w''.heap = x.add hf ∧ Q r x
        | .oom w'' => w''.failed = true
        | .ub => False := by
  obtain ⟨S, ns, g0, hf, _, hd, he, hI, hfb⟩ := hplay_ok hwf hA hsz hs hE hops hrun
  obtain ⟨g, Δ, rfl, hg, hp⟩ := heap_mem hI hi
  have hholds : Holds E c.objs w' g.h.beg g.xs := by
    by_cases hb : g.h.beg = 0
    · intro k x hk
      rw [(hg.ok.nil hb).1] at hk; simp at hk
    · exact TPool.holds hE hp he (rest := g.rest) (by rw [HGhost.own_pos hb]; simp)
  obtain ⟨R, hm, ha, hkn, hpool⟩ := hp
  refine ⟨g, Δ, R.map ext, rfl, hg, hholds, fun hb => ?_, fun f Q hQ => ?_⟩
  · obtain ⟨bs, h1, h2⟩ := hm.mem (q := g.h.beg) (sl := live g.xs ++ g.rest) (by rw [HGhost.own_pos hb]; simp)
    refine List.mem_map.2 ⟨_, h1, ?_⟩
    unfold ext
    rw [h2.len, hg.ok.cap, List.length_append, live_length]
  · obtain ⟨x, hf', hd', he', hx⟩ := two_pools_of hs' hdis hd he hpool hfb
    have key : Triple (Pool hA b c.st R ∗ bytes b' u.size) ((u.denote sys).init b' >>= f) Q := by
      have h1 := ((u.sound sys hwf').init_spec b' hs'.1 hs'.2.1 (by rw [u.objSize_eq]; exact hs'.2.2.1)).frame (Pool hA b c.st R)
      rw [u.objSize_eq, star_comm] at h1
      refine Triple.bind h1 (fun s => (hQ s).pre (fun y hy => ?_))
      refine ⟨R, hm, ha, hkn, R, [], by simp, .refl _, ?_⟩
      rw [star_comm]
      refine star_mono_left (fun z hz => ?_) _ hy
      show ((u.sound sys hwf').Inv b' s [] ∗ blocksV []) z
      rw [blocksV_nil, star_emp]; exact hz
    have := key w' x hf' hd' he' hx
    cases hr : ((u.denote sys).init b' >>= f) w' with
    | oom w'' => rw [hr] at this; exact this
    | ub => rw [hr] at this; exact this
    | ok r w'' =>
      rw [hr] at this
      obtain ⟨⟨y, k1, k2, k3⟩, _⟩ := this
      exact ⟨y, hf', k1, k2, k3⟩

/-- **C48 for heaps, copying to another allocator.** In every reachable state, copy construction with an allocator of its
own (any type) gives a heap with the elements of the source in the same order, and leaves the source as it was. (Copies with the
same allocator and moves: `C52_heap_is_bag`.) -/
theorem C48_copy_heap_to_other_allocator (sys : Sys) (t u : AllocTy) (hwf : t.WF) (hwf' : u.WF) (b b' : Nat) (w : World)
    (hs : Storage w b t.size) (hs' : Storage w b' u.size) (hdis : b + t.size ≤ b' ∨ b' + u.size ≤ b)
    (E : Elt α) (hE : E.Ok) (comp eq : α → α → Bool) (ops : List (BOp α)) (hops : HSane t E ops)
    (c : BHeaps (t.denote sys) α) (w' : World)
    (hrun : hplay E comp eq (t.denote sys) b ops w = .ok c w') (i : Nat) (h : BHeap) (hi : c.hs[i]? = some h)
    (hroom : E.size * h.size + u.margin < 2 ^ 64) (hemp : h.size = 0 → u.noRouting = true) :
    match (do let s ← (u.denote sys).init b'; h.copy E (u.denote sys) s c.objs) w' with
    | .ok (_, o, h') w'' => ∃ xs : List α, xs.length = h.size ∧ Holds E c.objs w' h.beg xs ∧ h'.size = h.size ∧
        Holds E o w'' h'.beg xs ∧ Holds E o w'' h.beg xs
    | .oom w'' => w''.failed = true
    | .ub => False := by
  obtain ⟨g, Δ, L, rfl, hg, hholds, _, key⟩ := two_heaps sys t u hwf hwf' (t.sound sys hwf) (t.objSize_eq sys) hs hs' hdis hE hops hrun hi
  rw [hg.ok.size] at hroom hemp ⊢
  have hfits : u.fits sys.plat (E.size * g.xs.length) := by
    rcases Nat.eq_zero_or_pos g.xs.length with h0 | h0
    · rw [h0, Nat.mul_zero]; exact u.fits_zero sys.plat hwf' (hemp h0) 0 (by omega)
    · exact u.fits_of_margin sys.plat hwf' _ (Nat.mul_pos hE.pos h0) hroom
  have := key (fun s => g.h.copy E (u.denote sys) s c.objs) _ (fun s => BHeap.crossCopy_spec hE hg.ok hfits (by omega))
  cases hr : ((u.denote sys).init b' >>= fun s => g.h.copy E (u.denote sys) s c.objs) w' with
  | oom w'' => rw [hr] at this; exact this
  | ub => rw [hr] at this; exact this
  | ok r w'' =>
    rw [hr] at this
    obtain ⟨x, hf, hd, he, g', k1, k2, k3, _, k4⟩ := this
    obtain ⟨s', o', h'⟩ := r
    replace k1 : g'.h = h' := k1
    subst k1
    have fin : ∀ g'' : HGhost α, g''.Ok → (∀ y ∈ g''.own, y ∈ g'.own ++ (g.own ++ Δ)) → Holds E o' w'' g''.h.beg g''.xs := fun g'' ho hm => by
      by_cases hb : g''.h.beg = 0
      · intro k x hk
        rw [(ho.nil hb).1] at hk; simp at hk
      · exact Two.holds hE k4 he (rest := g''.rest) (hm _ (by rw [HGhost.own_pos hb]; simp))
    refine ⟨g.xs, rfl, hholds, by rw [k2.size, k3], ?_, fin g hg.ok (fun y hy => by simp [hy])⟩
    rw [← k3]; exact fin g' k2 (fun y hy => by simp [hy])

/-- **C47 for heaps, partial**: for trivial elements of one byte, move construction with an allocator of its own transfers the elements
and returns the source's block with the size it was allocated with (the ledger of C43 accepts it). Missing: larger elements, for which
it is false (`C47_false_heap`); non-trivial ones, which are never destroyed (`C62_false`). -/
theorem C47_single_bytes_heap_partial (sys : Sys) (t u : AllocTy) (hwf : t.WF) (hwf' : u.WF) (b b' : Nat) (w : World)
    (hs : Storage w b t.size) (hs' : Storage w b' u.size) (hdis : b + t.size ≤ b' ∨ b' + u.size ≤ b)
    (E : Elt α) (hE : E.Ok) (h1 : E.size = 1) (ht : E.trivial = true) (comp eq : α → α → Bool) (ops : List (BOp α)) (hops : HSane t E ops)
    (c : BHeaps (strict (t.denote sys)) α) (w' : World)
    (hrun : hplay E comp eq (strict (t.denote sys)) b ops w = .ok c w') (i : Nat) (h : BHeap) (hi : c.hs[i]? = some h)
    (hroom : E.size * h.size + u.margin < 2 ^ 64) (hemp : h.size = 0 → u.noRouting = true) :
    match (do let s ← (u.denote sys).init b'; h.moveWith E (strict (t.denote sys)) c.st (u.denote sys) s c.objs) w' with
    | .ok (_, _, o, h') w'' => ∃ xs : List α, xs.length = h.size ∧ Holds E c.objs w' h.beg xs ∧ h'.size = h.size ∧ Holds E o w'' h'.beg xs
    | .oom w'' => w''.failed = true
    | .ub => False := by
  obtain ⟨g, Δ, L, rfl, hg, hholds, hL, key⟩ := two_heaps sys t u hwf hwf' (strict_sound (t.sound sys hwf)) (t.objSize_eq sys) hs hs' hdis hE hops hrun hi
  rw [hg.ok.size] at hroom hemp ⊢
  have hfits : u.fits sys.plat (E.size * g.xs.length) := by
    rcases Nat.eq_zero_or_pos g.xs.length with h0 | h0
    · rw [h0, Nat.mul_zero]; exact u.fits_zero sys.plat hwf' (hemp h0) 0 (by omega)
    · exact u.fits_of_margin sys.plat hwf' _ (Nat.mul_pos hE.pos h0) hroom
  have hcap : g.h.cap < W64 := by
    have h2 := hops.1
    rw [h1] at h2
    have := hg.cap_le
    omega
  have hm : mulW g.h.cap E.size = g.h.cap := by
    unfold mulW
    rw [h1, Nat.mul_one]; exact Nat.mod_eq_of_lt hcap
  have e : ∀ s, g.h.moveWith E (strict (t.denote sys)) c.st (u.denote sys) s c.objs = (do
      let r ← g.h.copy E (u.denote sys) s c.objs
      let x ← (if g.h.beg ≠ 0 then E.dealloc (strict (t.denote sys)) c.st r.2.1 g.h.beg g.h.cap else pure (c.st, r.2.1) :
        M ((strict (t.denote sys)).St × Objs α))
      pure (x.1, r.1, x.2, r.2.2)) := fun s => by
    rw [BHeap.moveWith_eq, hm]
  have spec : ∀ s, Triple (TStore (Two (strict_sound (t.sound sys hwf)) b c.st (u.sound sys hwf') b' s L) E c.objs (g.own ++ Δ))
      (g.h.moveWith E (strict (t.denote sys)) c.st (u.denote sys) s c.objs) (fun r x => ∃ (g' : HGhost α) (L' : List (Nat × Nat)), g'.h = r.2.2.2 ∧ g'.Ok ∧ g'.xs = g.xs ∧
        TStore (Two (strict_sound (t.sound sys hwf)) b r.1 (u.sound sys hwf') b' r.2.1 L') E r.2.2.1 (g'.own ++ Δ) x) := fun s => by
    rw [e]
    refine Triple.bind (BHeap.crossCopy_spec hE hg.ok hfits (by omega)) (fun r => ?_)
    refine Triple.exists fun g' => Triple.and fun k1 => Triple.and fun k2 => Triple.and fun k3 => Triple.and fun _ => ?_
    by_cases hb : g.h.beg = 0
    · rw [if_neg (by simp [hb]), HGhost.own_null hb, List.nil_append, pure_bind]
      exact Triple.pure _ (fun x hx => ⟨g', L, k1, k2, k3, hx⟩)
    · rw [if_pos hb, HGhost.own_pos hb]
      have hperm : (g'.own ++ ([(g.h.beg, live g.xs ++ g.rest)] ++ Δ)).Perm ((g.h.beg, live g.xs ++ g.rest) :: (g'.own ++ Δ)) := List.perm_middle
      rw [TStore.perm hperm]
      have hlen : (live g.xs ++ g.rest).length = g.h.cap := by rw [hg.ok.cap, List.length_append, live_length]
      rw [← hlen]
      refine Triple.bind (triple_twoDealloc hE ht (by rw [hlen, h1, Nat.one_mul]; exact hcap) (by rw [hlen]; exact hL hb)) (fun y => ?_)
      exact Triple.pure _ (fun x hx => ⟨g', _, k1, k2, k3, hx⟩)
  have := key _ _ spec
  cases hr : ((u.denote sys).init b' >>= fun s => g.h.moveWith E (strict (t.denote sys)) c.st (u.denote sys) s c.objs) w' with
  | oom w'' => rw [hr] at this; exact this
  | ub => rw [hr] at this; exact this
  | ok r w'' =>
    rw [hr] at this
    obtain ⟨x, hf, hd, he, g', L', k1, k2, k3, k4⟩ := this
    obtain ⟨s', s'', o', h'⟩ := r
    replace k1 : g'.h = h' := k1
    subst k1
    refine ⟨g.xs, rfl, hholds, by rw [k2.size, k3], ?_⟩
    by_cases hb : g'.h.beg = 0
    · intro k x hk
      rw [← k3, (k2.nil hb).1] at hk; simp at hk
    · rw [← k3]
      exact Two.holds hE k4 he (rest := g'.rest) (by rw [HGhost.own_pos hb]; simp)

/-- **C47 is false** for heaps with elements larger than one byte: in every reachable state, moving a heap with a block to another
allocator hands the block back with a size it was not allocated with (the ledger of C43 does not accept it). -/
theorem C47_false_heap (sys : Sys) (t : AllocTy) (hwf : t.WF) (B : Allocator) (s : B.St) (b : Nat) (w : World) (hs : Storage w b t.size)
    (E : Elt α) (hE : E.Ok) (h1 : 1 < E.size) (comp eq : α → α → Bool) (ops : List (BOp α)) (hops : HSane t E ops)
    (c : BHeaps (strict (t.denote sys)) α) (w' : World)
    (hrun : hplay E comp eq (strict (t.denote sys)) b ops w = .ok c w') (i : Nat) (h : BHeap) (hi : c.hs[i]? = some h)
    (hcap : 0 < h.cap) (hnw : E.size * (h.cap * E.size) < 2 ^ 64) (w1 w2 : World) (r : (strict (t.denote sys)).St × B.St × Objs α × BHeap) :
    h.moveWith E (strict (t.denote sys)) c.st B s c.objs w1 ≠ .ok r w2 := by
  intro hr
  obtain ⟨S, ns, g0, hf, _, hd, he, hI, hfb⟩ := hplay_ok hwf (strict_sound (t.sound sys hwf)) (t.objSize_eq sys) hs hE hops hrun
  obtain ⟨g, Δ, rfl, hg, hp⟩ := heap_mem hI hi
  have hb : g.h.beg ≠ 0 := fun h => by have := hg.ok.null h; omega
  rw [BHeap.moveWith_eq] at hr
  obtain ⟨r1, w4, q1, hr⟩ := bind_ok hr
  obtain ⟨s', w5, q3, hr⟩ := bind_ok hr
  rw [if_pos hb] at q3
  unfold Elt.dealloc at q3
  split at q3
  · cases q3
  · obtain ⟨s'', w6, q4, _⟩ := bind_ok q3
    unfold typedDealloc at q4
    have e1 : mulW g.h.cap E.size = g.h.cap * E.size := by
      refine Nat.mod_eq_of_lt ?_
      have : g.h.cap * E.size ≤ E.size * (g.h.cap * E.size) := Nat.le_mul_of_pos_left _ (by omega)
      omega
    have e2 : mulW E.size (g.h.cap * E.size) = E.size * (g.h.cap * E.size) := Nat.mod_eq_of_lt hnw
    rw [e1, e2] at q4
    replace q4 : (if (g.h.beg, E.size * (g.h.cap * E.size)) ∈ c.st.2.held then (do
        let s' ← (t.denote sys).dealloc c.st.1 g.h.beg (E.size * (g.h.cap * E.size))
        pure (s', c.st.2.gave g.h.beg (E.size * (g.h.cap * E.size)))) else M.ub) w4 = .ok s'' w6 := q4
    split at q4
    · rename_i hmem
      rw [HGhost.own_pos hb] at hp
      obtain ⟨R, hm, ha, hkn, hpool⟩ := hp
      cases hm with
      | @cons _ _ bs _ R' m1 m2 =>
        obtain ⟨g1, g2, hd12, rfl, ⟨⟨hperm, _⟩, _⟩, hbl⟩ := hpool
        have hlen : bs.length = g.h.cap * E.size := by rw [m1.len, hg.ok.cap, List.length_append, live_length]
        have hp1 : 0 < g.h.cap * E.size := Nat.mul_pos hcap (by omega)
        have hlt : g.h.cap * E.size < E.size * (g.h.cap * E.size) := by
          have : 2 * (g.h.cap * E.size) ≤ E.size * (g.h.cap * E.size) := Nat.mul_le_mul_right _ h1
          omega
        have hmem' := hperm.mem_iff.1 hmem
        simp only [List.map_cons, List.mem_cons] at hmem'
        rcases hmem' with hm | hm
        · have : E.size * (g.h.cap * E.size) = bs.length := congrArg Prod.snd hm
          omega
        · obtain ⟨k1, k2, hdk, rfl, hk1, hk2⟩ := hbl
          refine disj_isSome hdk (x := g.h.beg) (bytesV_isSome hk1 ⟨Nat.le_refl _, ?_⟩) (blocksV_isSome hk2 ⟨_, hm, Nat.le_refl _, ?_⟩)
          · show g.h.beg < g.h.beg + bs.length
            omega
          · show g.h.beg < g.h.beg + E.size * (g.h.cap * E.size)
            omega
    · cases q4

/-! ### C62 -/

/-- **C62 is false**: in every reachable state, moving a heap of a non-trivial element type that is not empty to another allocator
gives the storage of the source back without destroying the elements there (which the model does not let pass). -/
theorem C62_false (sys : Sys) (t u : AllocTy) (hwf : t.WF) (hwf' : u.WF) (b b' : Nat) (w : World)
    (hs : Storage w b t.size) (hs' : Storage w b' u.size) (hdis : b + t.size ≤ b' ∨ b' + u.size ≤ b)
    (E : Elt α) (hE : E.Ok) (ht : E.trivial = false) (comp eq : α → α → Bool) (ops : List (BOp α)) (hops : HSane t E ops)
    (c : BHeaps (t.denote sys) α) (w' : World)
    (hrun : hplay E comp eq (t.denote sys) b ops w = .ok c w') (i : Nat) (h : BHeap) (hi : c.hs[i]? = some h) (hne : 0 < h.size)
    (hroom : E.size * h.size + u.margin < 2 ^ 64) (r : (t.denote sys).St × (u.denote sys).St × Objs α × BHeap) (w'' : World) :
    (do let s ← (u.denote sys).init b'; h.moveWith E (t.denote sys) c.st (u.denote sys) s c.objs) w' ≠ .ok r w'' := by
  intro hr
  obtain ⟨g, Δ, L, rfl, hg, hholds, hL, key⟩ := two_heaps sys t u hwf hwf' (t.sound sys hwf) (t.objSize_eq sys) hs hs' hdis hE hops hrun hi
  have hsz := hg.ok.size
  have hcap := hg.ok.cap
  have hfits : u.fits sys.plat (E.size * g.xs.length) :=
    u.fits_of_margin sys.plat hwf' _ (Nat.mul_pos hE.pos (by omega)) (by rw [← hsz]; exact hroom)
  have hb := hg.ok.pos (by omega)
  have hpos : 0 < mulW g.h.cap E.size := by
    have h1 := hops.1
    have h2 : E.size * g.h.cap ≤ E.size * (2 * hweights ops) := Nat.mul_le_mul_left _ hg.cap_le
    unfold mulW
    rw [Nat.mul_comm, Nat.mod_eq_of_lt (by omega)]
    exact Nat.mul_pos hE.pos (by omega)
  obtain ⟨s, w1, q1, q2⟩ := bind_ok hr
  rw [BHeap.moveWith_eq] at q2
  obtain ⟨p, w3, q3, q2⟩ := bind_ok q2
  obtain ⟨x, w4, q5, q2⟩ := bind_ok q2
  rw [if_pos hb] at q5
  have hcopy : ((u.denote sys).init b' >>= fun s => g.h.copy E (u.denote sys) s c.objs) w' = .ok p w3 := by
    rw [M.bind_apply, q1]; exact q3
  have := key (fun s => g.h.copy E (u.denote sys) s c.objs) _ (fun s => BHeap.crossCopy_spec hE hg.ok hfits (by rw [← hsz]; omega))
  rw [hcopy] at this
  obtain ⟨y, hf, _, he, g', k1, k2, k3, _, k4⟩ := this
  have hold : Holds E p.2.1 w3 g.h.beg g.xs := Two.holds hE k4 he (rest := g.rest) (by rw [HGhost.own_pos hb]; simp)
  have halive := (hold 0 g.xs[0] (List.getElem?_eq_getElem (by omega))).1
  unfold Elt.dealloc at q5
  rw [if_pos ⟨ht, 0, hpos, by rw [halive]; rfl⟩] at q5
  cases q5

/-! ### C61 -/

/-- **C61 is false** if the heap is full: `h.insert(h.begin()[k])` never completes, in any state and over any allocator (growing
destroys the elements and frees their block before the argument is read). -/
theorem C61_false (E : Elt α) (hE : E.Ok) (comp : α → α → Bool) (A : Allocator) (s : A.St) (o : Objs α) (h : BHeap) (hb : h.beg ≠ 0) (hfull : h.size = h.cap)
    (k : Nat) (hk : k < h.size) (w w' : World) (r : Nat × A.St × Objs α × BHeap) :
    h.insert E comp A s o (.ref (h.beg + k * E.size)) w ≠ .ok r w' := by
  intro hr
  rw [BHeap.insert_eq, if_pos hfull] at hr
  obtain ⟨y, w1, q1, hr⟩ := bind_ok hr
  obtain ⟨v, w2, q2, _⟩ := bind_ok hr
  unfold BHeap.expand at q1
  rw [BHeap.setSize_eq] at q1
  obtain ⟨p, w3, _, q1⟩ := bind_ok q1
  obtain ⟨x, w4, q3, q1⟩ := bind_ok q1
  rw [if_pos hb] at q3
  obtain ⟨o1, w5, _, q3⟩ := bind_ok q3
  obtain ⟨o2, w6, _, q3⟩ := bind_ok q3
  obtain ⟨rfl, rfl⟩ := pure_ok q1
  unfold Elt.dealloc at q3
  split at q3
  · cases q3
  · obtain ⟨s', w7, _, q4⟩ := bind_ok q3
    obtain ⟨rfl, rfl⟩ := pure_ok q4
    refine Elt.read_none (p := h.beg + k * E.size) ?_ _ _ _ q2
    show Objs.forget o2 h.beg (h.cap * E.size) (h.beg + k * E.size) = none
    unfold Objs.forget
    have := hE.pos
    have hm : (k + 1) * E.size ≤ h.cap * E.size := Nat.mul_le_mul_right _ (by omega)
    rw [Nat.succ_mul] at hm
    exact if_pos ⟨by omega, by omega⟩

/-- **C61, partial**: in every reachable state, `h.insert(h.begin()[k])` on a heap with room inserts a copy of element `k`: the heap has
the elements it had and one more with that value, and the iterator refers to such an element. Missing: the full heap. -/
theorem C61_room_partial (sys : Sys) (t : AllocTy) (hwf : t.WF) (b : Nat) (w : World) (hs : Storage w b t.size)
    (E : Elt α) (hE : E.Ok) (comp eq : α → α → Bool) (ops : List (BOp α)) (hops : HSane t E ops)
    (c : BHeaps (t.denote sys) α) (w' : World)
    (hrun : hplay E comp eq (t.denote sys) b ops w = .ok c w') (i : Nat) (h : BHeap) (hi : c.hs[i]? = some h) (hroom : h.size < h.cap)
    (k : Nat) (hk : k < h.size) :
    match h.insert E comp (t.denote sys) c.st c.objs (.ref (h.beg + k * E.size)) w' with
    | .ok (p, _, o, h') w'' => ∃ (xs ys : List α) (v : α), xs.length = h.size ∧ Holds E c.objs w' h.beg xs ∧ xs[k]? = some v ∧
        ys.Perm (v :: xs) ∧ h'.size = ys.length ∧ Holds E o w'' h'.beg ys ∧ E.read o p w'' = .ok v w''
    | .oom w'' => w''.failed = true
    | .ub => False := by
  obtain ⟨S, ns, g0, hf, _, hd, he, hI, _⟩ := hplay_ok hwf (t.sound sys hwf) (t.objSize_eq sys) hs hE hops hrun
  obtain ⟨g, Δ, rfl, hg, hp⟩ := heap_mem hI hi
  have hfit := (hops.fits hwf hE sys.plat).1
  have hsz := hg.ok.size
  have hcap := hg.cap_le
  have hb := hg.ok.pos (by omega)
  have hkx : g.xs[k]? = some (g.xs[k]'(by omega)) := List.getElem?_eq_getElem (by omega)
  have key := BHeap.insert_spec (hA := t.sound sys hwf) (b := b) (s := c.st) (o := c.objs) (Γ := Δ) (comp := comp) hE hg.ok
    (hfit g.h.cap (by omega) hcap).1 (x := .ref (g.h.beg + k * E.size)) (v := g.xs[k]'(by omega))
    (.inr ⟨by omega, HArg.is_ref hE (rest := g.rest) hkx (by rw [HGhost.own_pos hb]; simp)⟩) (fun h => by omega) (fun h => by omega) w' g0 hf hd he hp
  have hold : Holds E c.objs w' g.h.beg g.xs := TPool.holds hE hp he (rest := g.rest) (by rw [HGhost.own_pos hb]; simp)
  cases hr : g.h.insert E comp (t.denote sys) c.st c.objs (.ref (g.h.beg + k * E.size)) w' with
  | oom w'' => rw [hr] at key; exact key
  | ub => rw [hr] at key; exact key
  | ok r w'' =>
    rw [hr] at key
    obtain ⟨⟨x', hd', he', g', k1, k2, k3, ⟨j, k4, k5⟩, _, _, k6⟩, _⟩ := key
    obtain ⟨p, s', o', h'⟩ := r
    replace k1 : g'.h = h' := k1
    replace k5 : p = g'.h.beg + j * E.size := k5
    subst k1
    have hl := k3.length_eq
    rw [List.length_cons] at hl
    have hb' := k2.pos (by omega)
    rw [HGhost.own_pos hb'] at k6
    have hnew : Holds E o' w'' g'.h.beg g'.xs := TPool.holds hE k6 he' (rest := g'.rest) (by simp)
    refine ⟨g.xs, g'.xs, _, hsz.symm, hold, hkx, k3, k2.size, hnew, ?_⟩
    rw [k5]; exact hnew.read hE k4

/-! ### Concrete cases -/

def demoEq (a b : UInt8) : Bool := a == b

/-- C46 over malloc: undefined behaviour. -/
theorem C46_false_heap_program : ((do
      let c ← hplay demoByte demoLess demoEq (mallocator (demoSys .direct)) 4096 [.newList [5, 3]]
      c.copyAssign demoByte 0 0) (demoWorld 0)).isUB = true := by decide +kernel

/-- C61 over malloc: undefined behaviour, even for bytes. -/
theorem C61_false_program : ((do
      let c ← hplay demoByte demoLess demoEq (mallocator (demoSys .direct)) 4096 [.newList [5, 3]]
      match c.hs with
      | [h] => h.insert demoByte demoLess (mallocator (demoSys .direct)) c.st c.objs (.ref h.beg)
      | _ => M.oom) (demoWorld 0)).isUB = true := by decide +kernel

/-- C47 over `overflow_allocator<mallocator>`: undefined behaviour for a trivial type of 8 bytes. -/
theorem C47_false_heap_overflow : ((do
      let E : Elt UInt8 := ⟨8, fun v => List.replicate 8 v, id, id, true⟩
      let c ← hplay E demoLess demoEq (overflow (mallocator (demoSys .direct))) 4096 [.newList [5]]
      match c.hs with
      | [h] => h.moveWith E (overflow (mallocator (demoSys .direct))) c.st (mallocator (demoSys .direct)) () c.objs
      | _ => M.oom) (demoWorld 32)).isUB = true := by decide +kernel

/-- The hypotheses of these theorems are met: an empty heap, a full one and one with room. -/
example : ((hplay demoElt demoLess demoEq (mallocator (demoSys .direct)) 4096 [.newCap 3, .newList [5, 3], .newList [7], .reserve 2 4] (demoWorld 0)).test fun c _ =>
    decide (c.hs.map (fun h => (h.size, h.cap)) = [(0, 3), (2, 2), (1, 4)])) = true := by decide +kernel
example : ((hplay demoByte demoLess demoEq (strict (mallocator (demoSys .direct))) 4096 [.newCap 3, .newList [5, 3], .newList [7], .reserve 2 4] (demoWorld 0)).test fun c _ =>
    decide (c.hs.map (fun h => (h.size, h.cap)) = [(0, 3), (2, 2), (1, 4)] ∧ c.st.2.held.length = 3)) = true := by decide +kernel
/-- the move succeeds for bytes -/
example : ((do
      let c ← hplay demoByte demoLess demoEq (strict (mallocator (demoSys .direct))) 4096 [.newList [5, 3]]
      match c.hs with
      | [h] => h.moveWith demoByte (strict (mallocator (demoSys .direct))) c.st (mallocator (demoSys .direct)) () c.objs
      | _ => M.oom) (demoWorld 0)).test (fun r _ => decide (r.1.2.held = [] ∧ r.2.2.2.size = 2)) = true := by decide +kernel

end KTL
