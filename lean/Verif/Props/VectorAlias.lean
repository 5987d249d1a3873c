import Verif.Props.VectorOps

/- C45–C48 for `trivial_vector`: arguments inside the vector, self assignment, other allocators. -/
namespace KTL

/-! ### Proof machinery: two allocator objects -/
section
variable {A B : Allocator} {fA fB : Nat → Prop} {hA : Sound A fA} {hB : Sound B fB} {b b' : Nat} {s : A.St} {t : B.St}

/-- what a pool says about memory -/
theorem Pool.heap {R : List (Nat × List UInt8)} {p : Nat} {bs : List UInt8} {h : Heap} (hp : Pool hA b s R h) (hm : (p, bs) ∈ R)
    (i : Nat) (hi : i < bs.length) : h.b (p + i) = some bs[i] := by
  obtain ⟨h1, h2, hd, rfl, _, h4⟩ := hp
  have e := blocksV_mem h4 hm i hi
  rcases hd.1 (p + i) with e' | e'
  · simp [e', e]
  · rw [e] at e'; cases e'

theorem heap_add_left {h g : Heap} {x : Nat} {e : UInt8} (h1 : h.b x = some e) : (h.add g).b x = some e := by
  show (h.b x).or (g.b x) = some e
  rw [h1]; rfl

theorem heap_add_right {h g : Heap} {x : Nat} {e : UInt8} (hd : Heap.disj h g) (h1 : g.b x = some e) : (h.add g).b x = some e := by
  rcases hd.1 x with e' | e'
  · show (h.b x).or (g.b x) = some e
    rw [e', h1]; rfl
  · rw [e'] at h1; cases h1

/-- copying from a block of one allocator to the beginning of a block of the other -/
theorem triple_crossCopy (p q n : Nat) (bs cs : List UInt8) (R R' : List (Nat × List UInt8)) (hq : (q, cs) ∈ R)
    (h1 : n ≤ bs.length) (h2 : n ≤ cs.length) :
    Triple (Pool hA b s R ∗ Pool hB b' t ((p, bs) :: R')) (M.memcpy p q n)
      (fun _ => Pool hA b s R ∗ Pool hB b' t ((p, splice bs 0 (cs.take n)) :: R')) := by
  obtain ⟨k, hk⟩ := List.mem_iff_getElem?.1 hq
  have hperm := perm_eraseIdx hk
  refine Triple.have (p := p + n ≤ q ∨ q + n ≤ p ∨ n = 0) (fun x hx => ?_) (fun hd => ?_)
  · obtain ⟨g1, g2, hd, rfl, hg1, hg2⟩ := hx
    have key : ∀ y, ¬ ((p ≤ y ∧ y < p + n) ∧ (q ≤ y ∧ y < q + n)) := fun y ⟨hy1, hy2⟩ => by
      have e1 := Pool.heap hg1 hq (y - q) (by omega)
      have e2 := Pool.heap hg2 (p := p) (bs := bs) (by simp) (y - p) (by omega)
      rw [show q + (y - q) = y by omega] at e1
      rw [show p + (y - p) = y by omega] at e2
      exact disj_isSome hd (x := y) (by rw [e1]; rfl) (by rw [e2]; rfl)
    have k1 := key p
    have k2 := key q
    omega
  · unfold M.memcpy
    rw [if_neg (by omega)]
    have hr := (triple_poolRead (hA := hA) (b := b) (s := s) q 0 n cs R _ hperm (by omega)).frame (Pool hB b' t ((p, bs) :: R'))
    simp only [Nat.add_zero, List.drop_zero] at hr
    refine Triple.bind hr (fun r => ?_)
    rw [star_and]
    refine Triple.and (fun hr => ?_)
    subst hr
    have hw := (triple_poolWrite (hA := hB) (b := b') (s := t) p 0 bs (cs.take n) _ R' (.refl _) (by rw [List.length_take]; omega)).frame (Pool hA b s R)
    simp only [Nat.add_zero] at hw
    rw [star_comm (Pool hA b s R)]
    refine hw.post (fun _ x hx => ?_)
    rw [star_comm]; exact hx

variable {sz : Nat} {v : Vec} {cap : Nat} {xs : List (List UInt8)} {full : List UInt8} {R R' : List (Nat × List UInt8)}

/-- the elements of `v` are copied to a new vector of another allocator -/
theorem Vec.crossCopy_spec (hz : 0 < sz) (hv : v.Rep sz cap xs full) (hf : fB (sz * xs.length)) (hn : sz * xs.length < W64)
    (hR : ∀ y ∈ v.own full, y ∈ R) :
    Triple (Pool hA b s R ∗ Pool hB b' t R') (Vec.copy sz B t v) (fun r x => ∃ full', r.2.Rep sz xs.length xs full' ∧
      (Pool hA b s R ∗ Pool hB b' r.1 (r.2.own full' ++ R')) x) := by
  unfold Vec.copy
  rw [hv.size_eq hz]
  have hnew := (Vec.ofSize_spec (hA := hB) (b := b') (s := t) (R := R') xs.length hf hn).frame (Pool hA b s R)
  rw [star_comm] at hnew
  refine Triple.bind hnew (fun r => ?_)
  rw [star_exists]
  refine Triple.exists (fun full' => ?_)
  rw [star_exists]
  refine Triple.exists (fun us => ?_)
  rw [star_and]
  refine Triple.and (fun hu => ?_)
  rw [star_and]
  refine Triple.and (fun hr => ?_)
  rw [star_comm]
  by_cases h0 : v.beg = 0
  · have hx : xs = [] := List.length_eq_zero_iff.1 (by have := hv.null h0; have := hv.le; omega)
    subst hx
    have hu' : us = [] := List.length_eq_zero_iff.1 hu
    subst hu'
    rw [if_neg (by simp [h0])]
    exact Triple.pure _ (fun x hx => ⟨full', hr, hx⟩)
  · simp only [ne_eq, h0, not_false_eq_true, if_true]
    by_cases hr0 : r.2.beg = 0
    · have hx0 : xs.length = 0 := hr.null hr0
      have hxe : xs = [] := List.length_eq_zero_iff.1 hx0
      subst hxe
      have hu' : us = [] := List.length_eq_zero_iff.1 hu
      subst hu'
      have : M.memcpy r.2.beg v.beg (([] : List (List UInt8)).length * sz) = pure () := by
        rw [List.length_nil, Nat.zero_mul]
        unfold M.memcpy
        rw [if_neg (by omega)]; rfl
      rw [this]
      exact Triple.bind (Triple.pure _ (fun x hx => hx)) (fun _ => Triple.pure _ (fun x hx => ⟨full', hr, hx⟩))
    · rw [Vec.own_pos hr0]
      have hm := hv.mul_le
      have hlen : full'.length = xs.length * sz := hr.len
      refine Triple.bind (triple_crossCopy r.2.beg v.beg (xs.length * sz) full' full R R' (hR _ (by rw [Vec.own_pos h0]; simp))
        (by rw [hlen]; omega) (by rw [hv.len]; exact hm)) (fun _ => ?_)
      refine Triple.pure _ (fun x hx => ⟨splice full' 0 (full.take (xs.length * sz)), ?_, ?_⟩)
      · have hl2 : (full.take (xs.length * sz)).length = xs.length * sz := by rw [List.length_take, hv.len]; omega
        have hl3 : (splice full' 0 (full.take (xs.length * sz))).length = full'.length := splice_length (by rw [hl2, hlen]; omega)
        refine ⟨by rw [hr.fin, hu], hr.max, Nat.le_refl _, by rw [hl3, hlen], ?_, hv.elems, hr.null⟩
        rw [hv.data]
        unfold splice
        rw [List.take_zero, List.nil_append, List.take_append_of_le_length (by rw [hv.elems.length]; omega),
          List.take_of_length_le (by rw [hv.elems.length]; omega)]
      · rw [Vec.own_pos hr0]; exact hx

/-- the move constructor with another allocator, if element counts and byte counts agree -/
theorem Vec.moveWith_spec (hz : sz = 1) (hv : v.Rep sz cap xs full) (hc : sz * cap < W64) (hf : fB (sz * xs.length)) (hn : sz * xs.length < W64) :
    Triple (Pool hA b s (v.own full ++ R) ∗ Pool hB b' t R') (Vec.moveWith sz A s B t v) (fun r x =>
      ∃ full', r.2.2.Rep sz xs.length xs full' ∧ (Pool hA b r.1 R ∗ Pool hB b' r.2.1 (r.2.2.own full' ++ R')) x) := by
  have hz' : 0 < sz := by omega
  have hcopy := Vec.crossCopy_spec (hA := hA) (hB := hB) (b := b) (b' := b') (s := s) (t := t) (R := v.own full ++ R) (R' := R') hz' hv hf hn
    (fun y hy => List.mem_append_left _ hy)
  have e : Vec.moveWith sz A s B t v = (do
      let r ← Vec.copy sz B t v
      let s' ← v.destroy sz A s
      pure (s', r.1, r.2)) := by
    unfold Vec.moveWith Vec.copy Vec.destroy
    have hm : mulW (v.capacity sz) sz = v.capacity sz := by
      unfold mulW
      rw [hv.capacity_eq hz', hz, Nat.mul_one]
      exact Nat.mod_eq_of_lt (by rw [hz, Nat.one_mul] at hc; exact hc)
    rw [hm]
    by_cases h0 : v.beg = 0
    · simp [h0]
    · simp only [ne_eq, h0, not_false_eq_true, if_true, bind_assoc, pure_bind]
  rw [e]
  refine Triple.bind hcopy (fun r => ?_)
  refine Triple.exists (fun full' => Triple.and (fun hr => ?_))
  refine Triple.bind ((Vec.destroy_spec (hA := hA) (R := R) hz' hv hc).frame _) (fun s' => ?_)
  exact Triple.pure _ (fun x hx => ⟨full', hr, hx⟩)
end


/-- The state after a program. -/
theorem vplay_state (sys : Sys) (t : AllocTy) (hwf : t.WF) {A : Allocator} (hA : Sound A (t.fits sys.plat)) (hsz : A.objSize = t.size) (b : Nat)
    (w : World) (hs : Storage w b t.size) (sz : Nat) (hz : 0 < sz) (ops : List VOp) (hops : VSane t sz ops) (c : Vecs A) (w' : World)
    (hrun : vplay sz A b ops w = .ok c w') :
    ∃ (Γ : List Ghost) (h hf : Heap), Heap.disj h hf ∧ w'.heap = h.add hf ∧ c.vs = Γ.map Ghost.v ∧ (∀ g ∈ Γ, g.Ok sz (weights ops)) ∧
      Pool hA b c.st (Γ.flatMap Ghost.own) h ∧ (∀ x, hf.b x = if b ≤ x ∧ x < b + t.size then none else w.heap.b x) := by
  obtain ⟨h0, hf, hd, he, hb, hfb, hft⟩ := storage_split hs
  have hfit := hops.fits hwf hz sys.plat
  have := vplay_spec hA b sz hz ops hfit.1 hfit.2 hs.1 hs.2.1 (by rw [hsz]; exact hs.2.2.1) w h0 hf hd he
    (by rw [hsz]; exact hb)
  rw [hrun] at this
  obtain ⟨⟨h', hd', he', S, _, Γ, hv, hx, hseen, hok, hp⟩, hna⟩ := this
  exact ⟨Γ, h', hf, hd', he', hv, hok, hp, hfb⟩

theorem vec_mem {c : List Vec} {Γ : List Ghost} (hv : c = Γ.map Ghost.v) {i : Nat} {v : Vec} (hi : c[i]? = some v) :
    ∃ g, Γ[i]? = some g ∧ g.v = v := by
  rw [hv, List.getElem?_map] at hi
  cases hg : Γ[i]? with
  | none => rw [hg] at hi; cases hi
  | some g => rw [hg] at hi; exact ⟨g, rfl, Option.some.inj hi⟩

/-! ### C45 -/

/-- A vector with one element, full; then `v.push_back(v[0])`. -/
def selfPush (sys : Sys) : M (Nat × Unit × Vec) := do
  let c ← vplay 4 (mallocator sys) 4096 [.new, .push 0 [1, 2, 3, 4]]
  match c.vs with
  | [v] => v.pushBack 4 (mallocator sys) () (.ref v.beg)
  | _ => M.oom

/-- **C45 is false**: growing frees the block before the argument is read. -/
theorem C45_false : (selfPush (demoSys .direct) (demoWorld 0)).isUB = true := by decide +kernel

theorem readBytes_not_oom (p n : Nat) (w w' : World) : M.readBytes p n w ≠ .oom w' := by
  induction n generalizing p w w' with
  | zero => intro h; cases h
  | succ n ih =>
    intro h
    unfold M.readBytes at h
    rw [M.bind_apply] at h
    cases hl : M.load p w with
    | ok a w1 =>
      rw [hl] at h
      replace h : (M.readBytes (p + 1) n >>= fun x => pure (a :: x)) w1 = .oom w' := h
      rw [M.bind_apply] at h
      cases hr : M.readBytes (p + 1) n w1 with
      | ok a' w2 => rw [hr] at h; cases h
      | oom w2 => exact ih _ _ _ hr
      | ub => rw [hr] at h; cases h
    | oom w1 => unfold M.load at hl; split at hl <;> cases hl
    | ub => rw [hl] at h; cases h

theorem writeBytes_not_oom (p : Nat) (bs : List UInt8) (w w' : World) : M.writeBytes p bs w ≠ .oom w' := by
  induction bs generalizing p w w' with
  | nil => intro h; cases h
  | cons e bs ih =>
    intro h
    unfold M.writeBytes at h
    rw [M.bind_apply] at h
    cases hl : M.store p e w with
    | ok a w1 => rw [hl] at h; exact ih _ _ _ h
    | oom w1 => unfold M.store at hl; split at hl <;> cases hl
    | ub => rw [hl] at h; cases h

/-- **C45, partial**: in every reachable state, `v.push_back(v[k])` on a vector with room appends a copy of element `k` and changes
nothing else in the vector. Missing: the case `size() = capacity()`, which is undefined behaviour (`C45_false`). -/
theorem C45_room_partial (sys : Sys) (t : AllocTy) (hwf : t.WF) (b : Nat) (w : World) (hs : Storage w b t.size)
    (sz : Nat) (hz : 0 < sz) (ops : List VOp) (hops : VSane t sz ops) (c : Vecs (t.denote sys)) (w' : World)
    (hrun : vplay sz (t.denote sys) b ops w = .ok c w') (i : Nat) (v : Vec) (hi : c.vs[i]? = some v) (k : Nat)
    (hk : k < v.size sz) (hroom : v.size sz < v.capacity sz) :
    match v.pushBack sz (t.denote sys) c.st (.ref (v.beg + k * sz)) w' with
    | .ok r w'' => r.2.2.size sz = v.size sz + 1 ∧ r.2.2.beg = v.beg ∧ r.1 = v.beg + v.size sz * sz ∧
        (∀ j, j < sz → (w'.heap.b (v.beg + k * sz + j)).isSome = true ∧ w''.heap.b (v.beg + v.size sz * sz + j) = w'.heap.b (v.beg + k * sz + j)) ∧
        ∀ j, j < v.size sz * sz → w''.heap.b (v.beg + j) = w'.heap.b (v.beg + j)
    | .oom _ => False
    | .ub => False := by
  obtain ⟨Γ, h, hf, hd, he, hv, hok, hp, hfb⟩ := vplay_state sys t hwf (t.sound sys hwf) (t.objSize_eq sys) b w hs sz hz ops hops c w' hrun
  obtain ⟨g, hg, rfl⟩ := vec_mem hv hi
  have hgo := (hok g (List.mem_of_getElem? hg)).rep
  rw [hgo.size_eq hz] at hk hroom ⊢
  rw [hgo.capacity_eq hz] at hroom
  have h0 := hgo.pos_of_index hk
  rw [Pool.perm (own_perm hg)] at hp
  have hkl : k * sz + sz ≤ g.xs.length * sz := by
    have := Nat.mul_le_mul_right sz hk
    rw [Nat.succ_mul] at this; exact this
  have hml := hgo.mul_le
  have hsl := hgo.slice k 1 hk
  rw [List.drop_eq_getElem_cons hk, List.take_succ_cons, List.take_zero, List.flatten_singleton, Nat.one_mul] at hsl
  have hel : g.xs[k].length = sz := hgo.elems _ (List.getElem_mem hk)
  have harg : ArgOk (.ref (g.v.beg + k * sz)) g.xs[k] (g.own ++ (Γ.eraseIdx i).flatMap Ghost.own) := by
    refine .inr ⟨g.v.beg, g.full, k * sz, rfl, ?_, by rw [hel, hgo.len]; omega, by rw [hel, hsl]⟩
    unfold Ghost.own; rw [Vec.own_pos h0]; simp
  have key := Vec.pushBack_room (hA := t.sound sys hwf) (b := b) (s := c.st) (R := (Γ.eraseIdx i).flatMap Ghost.own) hz hgo g.xs[k] (.ref (g.v.beg + k * sz))
    harg hel hroom w' h hf hd he hp
  have hne : ¬ g.v.fin = g.v.max := fun h => by have := (hgo.full_iff hz).1 h; omega
  cases hr : g.v.pushBack sz (t.denote sys) c.st (.ref (g.v.beg + k * sz)) w' with
  | ub => rw [hr] at key; exact key
  | oom w'' =>
    unfold Vec.pushBack at hr
    rw [if_neg hne] at hr
    replace hr : (M.readBytes (g.v.beg + k * sz) sz >>= fun bs => M.writeBytes g.v.fin bs >>= fun _ =>
      pure (g.v.fin, c.st, { g.v with fin := g.v.fin + sz })) w' = .oom w'' := hr
    rw [M.bind_apply] at hr
    cases h1 : M.readBytes (g.v.beg + k * sz) sz w' with
    | oom w1 => exact readBytes_not_oom _ _ _ _ h1
    | ub => rw [h1] at hr; cases hr
    | ok bs w1 =>
      rw [h1] at hr
      replace hr : (M.writeBytes g.v.fin bs >>= fun _ => pure (g.v.fin, c.st, { g.v with fin := g.v.fin + sz })) w1 = .oom w'' := hr
      rw [M.bind_apply] at hr
      cases h2 : M.writeBytes g.v.fin bs w1 with
      | oom w2 => exact writeBytes_not_oom _ _ _ _ h2
      | ub => rw [h2] at hr; cases hr
      | ok _ w2 => rw [h2] at hr; cases hr
  | ok r w'' =>
    rw [hr] at key
    obtain ⟨⟨h', hd', he', hit, full', hr', hp'⟩, _⟩ := key
    have hbeg : r.2.2.beg = g.v.beg := by
      unfold Vec.pushBack at hr
      rw [if_neg hne] at hr
      obtain ⟨a, w1, q1, q2⟩ := bind_ok hr
      obtain ⟨rfl, rfl⟩ := pure_ok q1
      obtain ⟨bs, w2, h3, h4⟩ := bind_ok q2
      obtain ⟨_, w3, h5, h6⟩ := bind_ok h4
      obtain ⟨rfl, rfl⟩ := pure_ok h6
      rfl
    have m1 : ∀ j (hj : j < g.full.length), w'.heap.b (g.v.beg + j) = some g.full[j] := fun j hj => by
      rw [he]; exact heap_add_left (Pool.heap hp (by unfold Ghost.own; rw [Vec.own_pos h0]; simp) j hj)
    have m2 : ∀ j (hj : j < full'.length), w''.heap.b (g.v.beg + j) = some full'[j] := fun j hj => by
      rw [he', ← hbeg]; exact heap_add_left (Pool.heap hp' (by rw [Vec.own_pos (by rw [hbeg]; exact h0)]; simp) j hj)
    have hd2 := hr'.data
    have hl1 := hgo.len
    have hl2 := hr'.len
    have hlen : (g.xs ++ [g.xs[k]]).length * sz = g.xs.length * sz + sz := by
      rw [List.length_append, List.length_singleton, Nat.succ_mul]
    have hcap : g.xs.length * sz + sz ≤ g.cap * sz := by
      have := Nat.mul_le_mul_right sz hroom
      rw [Nat.succ_mul] at this; exact this
    rw [List.flatten_append, List.flatten_singleton, hlen] at hd2
    have hfl : g.xs.flatten.length = g.xs.length * sz := hgo.elems.length
    have get2 : ∀ j, j < g.xs.length * sz + sz → full'[j]? = (g.xs.flatten ++ g.xs[k])[j]? := fun j hj => by
      rw [← hd2, List.getElem?_take_of_lt hj]
    have get1 : ∀ j, j < g.xs.length * sz → g.full[j]? = g.xs.flatten[j]? := fun j hj => by
      rw [← hgo.data, List.getElem?_take_of_lt hj]
    refine ⟨by rw [hr'.size_eq hz]; simp, hbeg, by rw [hit, hbeg], fun j hj => ⟨?_, ?_⟩, fun j hj => ?_⟩
    · rw [Nat.add_assoc, m1 _ (by omega)]; rfl
    · rw [Nat.add_assoc, Nat.add_assoc, m1 _ (by omega), m2 _ (by omega), ← List.getElem?_eq_getElem, ← List.getElem?_eq_getElem,
        get2 _ (by omega), List.getElem?_append_right (by omega), hfl, Nat.add_sub_cancel_left, ← hsl,
        List.getElem?_take_of_lt hj, List.getElem?_drop]
    · rw [m1 _ (by omega), m2 _ (by omega), ← List.getElem?_eq_getElem, ← List.getElem?_eq_getElem, get1 _ hj, get2 _ (by omega),
        List.getElem?_append_left (by omega)]

/-! ### C46 -/

/-- **C46 is false** for every vector that is not empty, in every state and over every allocator: `v = v` never
completes (it copies the new, uninitialised block onto itself, after freeing the old one). -/
theorem C46_false_vector (sz : Nat) (hz : 0 < sz) (A : Allocator) (c : Vecs A) (i : Nat) (v : Vec) (hi : c.vs[i]? = some v)
    (hn : 0 < v.size sz) (w w' : World) (c' : Vecs A) : c.copyAssign sz i i w ≠ .ok c' w' := by
  intro h
  unfold Vecs.copyAssign at h
  simp only [hi] at h
  obtain ⟨s, w1, h1, h2⟩ := bind_ok h
  obtain ⟨r, w2, h3, h4⟩ := bind_ok h2
  obtain ⟨_, w3, h5, h6⟩ := bind_ok h4
  have hlen : i < c.vs.length := (List.getElem?_eq_some_iff.1 hi).1
  rw [List.getElem?_set_self hlen] at h5
  have hp : 0 < v.size sz * sz := Nat.mul_pos hn hz
  replace h5 : M.memcpy r.2.beg r.2.beg (v.size sz * sz) w2 = .ok () w3 := h5
  unfold M.memcpy at h5
  rw [if_pos (by omega)] at h5
  cases h5

/-- The same for a vector with one element over malloc: the outcome is undefined behaviour. -/
theorem C46_false : ((do
      let c ← vplay 4 (mallocator (demoSys .direct)) 4096 [.new, .push 0 [1, 2, 3, 4]]
      c.copyAssign 4 0 0) (demoWorld 0)).isUB = true := by decide +kernel

theorem selfAssign_empty {sys : Sys} {t : AllocTy} {hwf : t.WF} {b sz T : Nat} (hz : 0 < sz) (hT : sz * (2 * T) + t.margin < 2 ^ 64) (hrt : t.noRouting = true)
    {c : Vecs (t.denote sys)} {Γ : List Ghost} {g : Ghost} {i : Nat} (hi : c.vs[i]? = some g.v) (hg : Γ[i]? = some g)
    (hok : ∀ g ∈ Γ, g.Ok sz T) {w' : World} {h hf : Heap} (hd : Heap.disj h hf) (he : w'.heap = h.add hf)
    (hp : Pool (t.sound sys hwf) b c.st (Γ.flatMap Ghost.own) h) (hv0 : g.v.size sz = 0) :
    match c.copyAssign sz i i w' with
    | .ok c' _ => ∃ v', c'.vs = c.vs.set i v' ∧ v'.size sz = 0
    | .oom w'' => w''.failed = true
    | .ub => False := by
  have hgo := hok g (List.mem_of_getElem? hg)
  rw [hgo.rep.size_eq hz] at hv0
  have hfits : t.fits sys.plat (sz * 0) := by
    have := hT
    rw [Nat.mul_zero]; exact t.fits_zero sys.plat hwf hrt 0 (by omega)
  have hcl : sz * g.cap < W64 := by
    have := hT
    have h2 : sz * g.cap ≤ sz * (2 * T) := Nat.mul_le_mul_left _ hgo.cap_le
    omega
  rw [Pool.perm (own_perm hg)] at hp
  have key : Triple (Pool (t.sound sys hwf) b c.st (g.own ++ (Γ.eraseIdx i).flatMap Ghost.own)) (c.copyAssign sz i i)
      (fun c' _ => ∃ v', c'.vs = c.vs.set i v' ∧ v'.size sz = 0) := by
    unfold Vecs.copyAssign
    simp only [hi]
    refine Triple.bind (Vec.destroy_spec hz hgo.rep hcl) (fun s => ?_)
    rw [hgo.rep.size_eq hz, hv0]
    refine Triple.bind (Vec.ofSize_spec 0 hfits (by rw [Nat.mul_zero]; decide)) (fun r => ?_)
    refine Triple.exists (fun full => Triple.exists (fun us => Triple.and (fun hu => Triple.and (fun hr => ?_))))
    have e : ∀ x, M.memcpy r.2.beg x (0 * sz) = pure () := fun x => by
      rw [Nat.zero_mul]
      unfold M.memcpy
      rw [if_neg (by omega)]; rfl
    rw [e]
    refine Triple.bind (R := fun _ => Pool (t.sound sys hwf) b r.1 (r.2.own full ++ (Γ.eraseIdx i).flatMap Ghost.own))
      (Triple.pure _ (fun x hx => hx)) (fun _ => Triple.pure _ (fun x hx => ⟨r.2, rfl, ?_⟩))
    rw [hr.size_eq hz, hu]
  have := key w' h hf hd he hp
  cases hr : c.copyAssign sz i i w' with
  | ok c' w'' => rw [hr] at this; obtain ⟨⟨_, _, _, hx⟩, _⟩ := this; exact hx
  | oom w'' => rw [hr] at this; exact this
  | ub => rw [hr] at this; exact this

/-- **C46, partial**: assigning an empty vector to itself leaves it empty and the others unchanged. Missing: all other
vectors, for which the property is false (`C46_false_vector`). -/
theorem C46_empty_vector_partial (sys : Sys) (t : AllocTy) (hwf : t.WF) (b : Nat) (w : World) (hs : Storage w b t.size)
    (sz : Nat) (hz : 0 < sz) (ops : List VOp) (hops : VSane t sz ops) (hrt : t.noRouting = true) (c : Vecs (t.denote sys)) (w' : World)
    (hrun : vplay sz (t.denote sys) b ops w = .ok c w') (i : Nat) (v : Vec) (hi : c.vs[i]? = some v) (hv0 : v.size sz = 0) :
    match c.copyAssign sz i i w' with
    | .ok c' _ => ∃ v', c'.vs = c.vs.set i v' ∧ v'.size sz = 0
    | .oom w'' => w''.failed = true
    | .ub => False := by
  obtain ⟨Γ, h, hf, hd, he, hv, hok, hp, hfb⟩ := vplay_state sys t hwf (t.sound sys hwf) (t.objSize_eq sys) b w hs sz hz ops hops c w' hrun
  obtain ⟨g, hg, rfl⟩ := vec_mem hv hi
  exact selfAssign_empty hz hops.1 hrt hi hg hok hd he hp hv0

/-! ### C47, C48 with a different allocator -/

/-- The two allocator objects after a program over the first and construction of the second. -/
theorem two_pools_of {A : Allocator} {fA : Nat → Prop} {hA : Sound A fA} {t u : AllocTy} {b b' : Nat} {st : A.St} {R : List (Nat × List UInt8)}
    {w w' : World} (hs' : Storage w b' u.size) (hdis : b + t.size ≤ b' ∨ b' + u.size ≤ b) {h hf : Heap} (hd : Heap.disj h hf) (he : w'.heap = h.add hf)
    (hp : Pool hA b st R h) (hfb : ∀ x, hf.b x = if b ≤ x ∧ x < b + t.size then none else w.heap.b x) :
    ∃ (h hf : Heap), Heap.disj h hf ∧ w'.heap = h.add hf ∧ (Pool hA b st R ∗ bytes b' u.size) h := by
  have hst : Storage { w with heap := hf } b' u.size := by
    refine ⟨hs'.1, hs'.2.1, hs'.2.2.1, fun x h1 h2 => ?_⟩
    show (hf.b x).isSome = true
    rw [hfb, if_neg (by omega)]
    exact hs'.2.2.2 x h1 h2
  obtain ⟨h2, hf2, hd2, he2, hb2, _, _⟩ := storage_split hst
  replace he2 : hf = h2.add hf2 := he2
  subst he2
  have hd3 := Heap.disj_add_right.1 hd
  exact ⟨h.add h2, hf2, Heap.disj_add_left.2 ⟨hd3.2, hd2⟩, by rw [he, Heap.add_assoc], h, h2, hd3.1, rfl, hp, hb2⟩

theorem two_pools (sys : Sys) (t u : AllocTy) (hwf : t.WF) {A : Allocator} (hA : Sound A (t.fits sys.plat)) (hsz : A.objSize = t.size) (b b' : Nat)
    (w : World) (hs : Storage w b t.size) (hs' : Storage w b' u.size) (hdis : b + t.size ≤ b' ∨ b' + u.size ≤ b)
    (sz : Nat) (hz : 0 < sz) (ops : List VOp) (hops : VSane t sz ops) (c : Vecs A) (w' : World)
    (hrun : vplay sz A b ops w = .ok c w') :
    ∃ (Γ : List Ghost) (h hf : Heap), Heap.disj h hf ∧ w'.heap = h.add hf ∧ c.vs = Γ.map Ghost.v ∧ (∀ g ∈ Γ, g.Ok sz (weights ops)) ∧
      (Pool hA b c.st (Γ.flatMap Ghost.own) ∗ bytes b' u.size) h := by
  obtain ⟨Γ, h, hf, hd, he, hv, hok, hp, hfb⟩ := vplay_state sys t hwf hA hsz b w hs sz hz ops hops c w' hrun
  obtain ⟨h', hf', hd', he', hp'⟩ := two_pools_of hs' hdis hd he hp hfb
  exact ⟨Γ, h', hf', hd', he', hv, hok, hp'⟩

theorem pools_contents {A : Allocator} {fA : Nat → Prop} {hA : Sound A fA} {b sz : Nat}
    {s : A.St} {v : Vec} {cap : Nat} {xs : List (List UInt8)} {full : List UInt8} {R : List (Nat × List UInt8)} {h : Heap}
    (hp : Pool hA b s R h) (hv : v.Rep sz cap xs full) (hm : ∀ y ∈ v.own full, y ∈ R) (j : Nat) (hj : j < xs.length * sz) :
    h.b (v.beg + j) = xs.flatten[j]? := by
  have hml := hv.mul_le
  have h0 : v.beg ≠ 0 := fun h0 => by
    have := hv.null h0
    have h1 := hv.le
    rw [show xs.length = 0 by omega] at hj; omega
  have hl : j < full.length := by rw [hv.len]; omega
  rw [Pool.heap hp (hm _ (by rw [Vec.own_pos h0]; simp)) j hl, ← List.getElem?_eq_getElem, ← hv.data, List.getElem?_take_of_lt hj]

theorem copy_other (sys : Sys) (t u : AllocTy) (hwf : t.WF) (hwf' : u.WF) {b b' : Nat} {w : World} (hs' : Storage w b' u.size) {sz : Nat} (hz : 0 < sz)
    {st : (t.denote sys).St} {Γ : List Ghost} {g : Ghost} {i : Nat} (hg : Γ[i]? = some g) (hgo : g.v.Rep sz g.cap g.xs g.full)
    (hroom : sz * (g.v.size sz) + u.margin < 2 ^ 64) (hemp : g.v.size sz = 0 → u.noRouting = true)
    {w' : World} {h hf : Heap} (hd : Heap.disj h hf) (he : w'.heap = h.add hf)
    (hp : (Pool (t.sound sys hwf) b st (Γ.flatMap Ghost.own) ∗ bytes b' u.size) h) :
    match (do let s ← (u.denote sys).init b'; Vec.copy sz (u.denote sys) s g.v) w' with
    | .ok r w'' => r.2.size sz = g.v.size sz ∧ ∀ j, j < g.v.size sz * sz → (w'.heap.b (g.v.beg + j)).isSome = true ∧
        w''.heap.b (r.2.beg + j) = w'.heap.b (g.v.beg + j) ∧ w''.heap.b (g.v.beg + j) = w'.heap.b (g.v.beg + j)
    | .oom w'' => w''.failed = true
    | .ub => False := by
  have hmem : ∀ y ∈ g.v.own g.full, y ∈ Γ.flatMap Ghost.own := fun y hy => List.mem_flatMap.2 ⟨g, List.mem_of_getElem? hg, hy⟩
  rw [hgo.size_eq hz] at hroom hemp ⊢
  have hfits : u.fits sys.plat (sz * g.xs.length) := by
    rcases Nat.eq_zero_or_pos g.xs.length with h0 | h0
    · rw [h0, Nat.mul_zero]; exact u.fits_zero sys.plat hwf' (hemp h0) 0 (by omega)
    · exact u.fits_of_margin sys.plat hwf' _ (Nat.mul_pos hz h0) hroom
  have key : Triple (Pool (t.sound sys hwf) b st (Γ.flatMap Ghost.own) ∗ bytes b' u.size)
      (do let s ← (u.denote sys).init b'; Vec.copy sz (u.denote sys) s g.v)
      (fun r x => ∃ full', r.2.Rep sz g.xs.length g.xs full' ∧
        (Pool (t.sound sys hwf) b st (Γ.flatMap Ghost.own) ∗ Pool (u.sound sys hwf') b' r.1 (r.2.own full' ++ [])) x) := by
    have h1 := ((u.sound sys hwf').init_spec b' hs'.1 hs'.2.1 (by rw [u.objSize_eq]; exact hs'.2.2.1)).frame
      (Pool (t.sound sys hwf) b st (Γ.flatMap Ghost.own))
    rw [u.objSize_eq, star_comm] at h1
    refine Triple.bind h1 (fun s => ?_)
    refine (Vec.crossCopy_spec (hA := t.sound sys hwf) (hB := u.sound sys hwf') (b := b) (b' := b') (s := st) (t := s) (R' := []) hz hgo hfits
      (by omega) hmem).pre (fun x hx => ?_)
    rw [star_comm]
    refine star_mono_left (fun y hy => ?_) _ hx
    show ((u.sound sys hwf').Inv b' s [] ∗ blocksV []) y
    rw [blocksV_nil, star_emp]; exact hy
  have := key w' h hf hd he hp
  cases hr : (do let s ← (u.denote sys).init b'; Vec.copy sz (u.denote sys) s g.v : M _) w' with
  | oom w'' => rw [hr] at this; exact this
  | ub => rw [hr] at this; exact this
  | ok r w'' =>
    rw [hr] at this
    obtain ⟨⟨h', hd', he', full', hrep, g1, g2, hd12, rfl, hp1, hp2⟩, _⟩ := this
    obtain ⟨k1, k2, hdk, rfl, hq1, hq2⟩ := hp
    refine ⟨hrep.size_eq hz, fun j hj => ?_⟩
    have hjl : j < g.xs.flatten.length := by rw [hgo.elems.length]; exact hj
    have a1 := pools_contents hq1 hgo hmem j hj
    have a2 := pools_contents hp1 hgo hmem j hj
    have a3 := pools_contents hp2 hrep (fun y hy => by simpa using hy) j hj
    rw [List.getElem?_eq_getElem hjl] at a1 a2 a3
    have b1 : w'.heap.b (g.v.beg + j) = some (g.xs.flatten[j]) := by rw [he]; exact heap_add_left (heap_add_left a1)
    have b2 : w''.heap.b (g.v.beg + j) = some (g.xs.flatten[j]) := by rw [he']; exact heap_add_left (heap_add_left a2)
    have b3 : w''.heap.b (r.2.beg + j) = some (g.xs.flatten[j]) := by rw [he']; exact heap_add_left (heap_add_right hd12 a3)
    exact ⟨by rw [b1]; rfl, by rw [b1, b3], by rw [b1, b2]⟩

/-- **C48, copying to another allocator.** In every reachable state, copy construction with an allocator of its own (any type) gives
a vector with the contents of the source, and leaves the source as it was. -/
theorem C48_copy_to_other_allocator (sys : Sys) (t u : AllocTy) (hwf : t.WF) (hwf' : u.WF) (b b' : Nat) (w : World)
    (hs : Storage w b t.size) (hs' : Storage w b' u.size) (hdis : b + t.size ≤ b' ∨ b' + u.size ≤ b)
    (sz : Nat) (hz : 0 < sz) (ops : List VOp) (hops : VSane t sz ops) (c : Vecs (t.denote sys)) (w' : World)
    (hrun : vplay sz (t.denote sys) b ops w = .ok c w') (i : Nat) (v : Vec) (hi : c.vs[i]? = some v)
    (hroom : sz * (v.size sz) + u.margin < 2 ^ 64) (hemp : v.size sz = 0 → u.noRouting = true) :
    match (do let s ← (u.denote sys).init b'; Vec.copy sz (u.denote sys) s v) w' with
    | .ok r w'' => r.2.size sz = v.size sz ∧ ∀ j, j < v.size sz * sz → (w'.heap.b (v.beg + j)).isSome = true ∧
        w''.heap.b (r.2.beg + j) = w'.heap.b (v.beg + j) ∧ w''.heap.b (v.beg + j) = w'.heap.b (v.beg + j)
    | .oom w'' => w''.failed = true
    | .ub => False := by
  obtain ⟨Γ, h, hf, hd, he, hv, hok, hp⟩ := two_pools sys t u hwf (t.sound sys hwf) (t.objSize_eq sys) b b' w hs hs' hdis sz hz ops hops c w' hrun
  obtain ⟨g, hg, rfl⟩ := vec_mem hv hi
  exact copy_other sys t u hwf hwf' hs' hz hg (hok g (List.mem_of_getElem? hg)).rep hroom hemp hd he hp

/-- The rest of the life of a program that moves its vector `v` to the allocator `B` at `b'`: the move, then destruction
of the other vectors `vs`, then of the old allocator. -/
def moveLife (sz : Nat) (A : Allocator) (s : A.St) (B : Allocator) (b' : Nat) (v : Vec) (vs : List Vec) : M (B.St × Vec) := do
  let t ← B.init b'
  let r ← Vec.moveWith sz A s B t v
  let s' ← Vecs.destroyAll sz r.1 vs
  A.fini s'
  pure r.2

theorem move_other (sys : Sys) (t u : AllocTy) (hwf : t.WF) (hwf' : u.WF) {b b' : Nat} {w : World} (hs' : Storage w b' u.size)
    {st : (strict (t.denote sys)).St} {Γ : List Ghost} {g : Ghost} {i T : Nat} (hT : 2 * T < W64) (hg : Γ[i]? = some g) (hok : ∀ g ∈ Γ, g.Ok 1 T)
    (hroom : g.v.size 1 + u.margin < 2 ^ 64) (hemp : g.v.size 1 = 0 → u.noRouting = true)
    {w' : World} {h hf : Heap} (hd : Heap.disj h hf) (he : w'.heap = h.add hf)
    (hp : (Pool (strict_sound (t.sound sys hwf)) b st (Γ.flatMap Ghost.own) ∗ bytes b' u.size) h) :
    match moveLife 1 (strict (t.denote sys)) st (u.denote sys) b' g.v ((Γ.map Ghost.v).eraseIdx i) w' with
    | .ok r w'' => r.2.size 1 = g.v.size 1 ∧ ∀ j, j < g.v.size 1 → (w'.heap.b (g.v.beg + j)).isSome = true ∧
        w''.heap.b (r.2.beg + j) = w'.heap.b (g.v.beg + j)
    | .oom w'' => w''.failed = true
    | .ub => False := by
  have hgok := hok g (List.mem_of_getElem? hg)
  have hgo := hgok.rep
  rw [hgo.size_eq (by omega)] at hroom hemp ⊢
  have hfits : u.fits sys.plat (1 * g.xs.length) := by
    rw [Nat.one_mul]
    rcases Nat.eq_zero_or_pos g.xs.length with h0 | h0
    · rw [h0]; exact u.fits_zero sys.plat hwf' (hemp h0) 0 (by omega)
    · exact u.fits_of_margin sys.plat hwf' _ h0 hroom
  have hW : ∀ n, n ≤ 2 * T → 1 * n < W64 := fun n hn => by
    have := hT
    omega
  have key : Triple (Pool (strict_sound (t.sound sys hwf)) b st (Γ.flatMap Ghost.own) ∗ bytes b' u.size)
      (moveLife 1 (strict (t.denote sys)) st (u.denote sys) b' g.v ((Γ.map Ghost.v).eraseIdx i))
      (fun r x => ∃ full', r.2.Rep 1 g.xs.length g.xs full' ∧
        (Pool (u.sound sys hwf') b' r.1 (r.2.own full' ++ []) ∗ bytes b t.size) x) := by
    have h1 := ((u.sound sys hwf').init_spec b' hs'.1 hs'.2.1 (by rw [u.objSize_eq]; exact hs'.2.2.1)).frame
      (Pool (strict_sound (t.sound sys hwf)) b st (Γ.flatMap Ghost.own))
    rw [u.objSize_eq, star_comm] at h1
    refine Triple.bind h1 (fun s => ?_)
    rw [Pool.perm (own_perm hg)]
    refine Triple.bind ((Vec.moveWith_spec (hA := strict_sound (t.sound sys hwf)) (hB := u.sound sys hwf') (b := b) (b' := b') (s := st) (t := s)
      (R := (Γ.eraseIdx i).flatMap Ghost.own) (R' := []) rfl hgo (hW _ hgok.cap_le) hfits (by omega)).pre (fun x hx => ?_)) (fun r => ?_)
    · rw [star_comm]
      refine star_mono_left (fun y hy => ?_) _ hx
      show ((u.sound sys hwf').Inv b' s [] ∗ blocksV []) y
      rw [blocksV_nil, star_emp]; exact hy
    · refine Triple.exists (fun full' => Triple.and (fun hr => ?_))
      have hda := (destroyAll_spec (strict_sound (t.sound sys hwf)) b 1 (T) (by omega) hW (Γ.eraseIdx i)
        (fun g hg => hok g (List.mem_of_mem_eraseIdx hg)) r.1).frame (Pool (u.sound sys hwf') b' r.2.1 (r.2.2.own full' ++ []))
      rw [Linear.map_eraseIdx']
      refine Triple.bind hda (fun s' => ?_)
      refine Triple.bind (((strict_sound (t.sound sys hwf)).fini_spec b s').frame _) (fun _ => ?_)
      refine Triple.pure _ (fun x hx => ⟨full', hr, ?_⟩)
      rw [star_comm]
      have : (strict (t.denote sys)).objSize = t.size := t.objSize_eq sys
      rw [← this]; exact hx
  have := key w' h hf hd he hp
  cases hr : moveLife 1 (strict (t.denote sys)) st (u.denote sys) b' g.v ((Γ.map Ghost.v).eraseIdx i) w' with
  | oom w'' => rw [hr] at this; exact this
  | ub => rw [hr] at this; exact this
  | ok r w'' =>
    rw [hr] at this
    obtain ⟨⟨h', hd', he', full', hrep, g1, g2, hd12, rfl, hp2, _⟩, _⟩ := this
    obtain ⟨k1, k2, hdk, rfl, hq1, hq2⟩ := hp
    refine ⟨hrep.size_eq (by omega), fun j hj => ?_⟩
    have hj' : j < g.xs.length * 1 := by omega
    have hjl : j < g.xs.flatten.length := by rw [hgo.elems.length]; exact hj'
    have a1 := pools_contents hq1 hgo
      (fun y hy => List.mem_flatMap.2 ⟨g, List.mem_of_getElem? hg, hy⟩) j hj'
    have a3 := pools_contents hp2 hrep (fun y hy => by simpa using hy) j hj'
    rw [List.getElem?_eq_getElem hjl] at a1 a3
    have b1 : w'.heap.b (g.v.beg + j) = some (g.xs.flatten[j]) := by rw [he]; exact heap_add_left (heap_add_left a1)
    have b3 : w''.heap.b (r.2.beg + j) = some (g.xs.flatten[j]) := by rw [he']; exact heap_add_left (heap_add_left a3)
    exact ⟨by rw [b1]; rfl, by rw [b1, b3]⟩

/-- **C47, partial**: for elements of one byte, move construction with an allocator of its own transfers the contents and returns the
source's block with the size it was allocated with: with the ledger of C43 around the old allocator there is no undefined behaviour to
the end of its life. Missing: larger elements, for which it is false (`C47_false`). -/
theorem C47_single_bytes_partial (sys : Sys) (t u : AllocTy) (hwf : t.WF) (hwf' : u.WF) (b b' : Nat) (w : World)
    (hs : Storage w b t.size) (hs' : Storage w b' u.size) (hdis : b + t.size ≤ b' ∨ b' + u.size ≤ b)
    (ops : List VOp) (hops : VSane t 1 ops) (c : Vecs (strict (t.denote sys))) (w' : World)
    (hrun : vplay 1 (strict (t.denote sys)) b ops w = .ok c w') (i : Nat) (v : Vec) (hi : c.vs[i]? = some v)
    (hroom : v.size 1 + u.margin < 2 ^ 64) (hemp : v.size 1 = 0 → u.noRouting = true) :
    match moveLife 1 (strict (t.denote sys)) c.st (u.denote sys) b' v (c.vs.eraseIdx i) w' with
    | .ok r w'' => r.2.size 1 = v.size 1 ∧ ∀ j, j < v.size 1 → (w'.heap.b (v.beg + j)).isSome = true ∧
        w''.heap.b (r.2.beg + j) = w'.heap.b (v.beg + j)
    | .oom w'' => w''.failed = true
    | .ub => False := by
  obtain ⟨Γ, h, hf, hd, he, hv, hok, hp⟩ := two_pools sys t u hwf (strict_sound (t.sound sys hwf)) (t.objSize_eq sys) b b' w hs hs' hdis 1
    (by omega) ops hops c w' hrun
  obtain ⟨g, hg, rfl⟩ := vec_mem hv hi
  rw [hv]
  exact move_other sys t u hwf hwf' hs' (by have := hops.1; omega) hg hok hroom hemp hd he hp

theorem moveWith_refused {sys : Sys} {t : AllocTy} {hwf : t.WF} {B : Allocator} {s : B.St} {b sz : Nat} (hz : 1 < sz) {st : (strict (t.denote sys)).St}
    {Γ : List Ghost} {g : Ghost} {i : Nat} (hg : Γ[i]? = some g) (hgo : g.v.Rep sz g.cap g.xs g.full) {h : Heap}
    (hp : Pool (strict_sound (t.sound sys hwf)) b st (Γ.flatMap Ghost.own) h)
    (hcap : 0 < g.v.capacity sz) (hnw : sz * (g.v.capacity sz * sz) < 2 ^ 64) {w1 w2 : World}
    {r : (strict (t.denote sys)).St × B.St × Vec} (hr : Vec.moveWith sz (strict (t.denote sys)) st B s g.v w1 = .ok r w2) : False := by
  rw [hgo.capacity_eq (by omega)] at hcap hnw
  have h0 : g.v.beg ≠ 0 := fun h => by have := hgo.null h; omega
  rw [Pool.perm (own_perm hg)] at hp
  unfold Vec.moveWith at hr
  obtain ⟨r1, w3, h1, h2⟩ := bind_ok hr
  rw [if_pos h0] at h2
  obtain ⟨_, w4, h3, h4⟩ := bind_ok h2
  obtain ⟨s', w5, h5, h6⟩ := bind_ok h4
  unfold typedDealloc at h5
  have e1 : mulW (g.v.capacity sz) sz = g.cap * sz := by
    rw [hgo.capacity_eq (by omega)]
    refine Nat.mod_eq_of_lt ?_
    have : g.cap * sz ≤ sz * (g.cap * sz) := Nat.le_mul_of_pos_left _ (by omega)
    omega
  have e2 : mulW sz (g.cap * sz) = sz * (g.cap * sz) := Nat.mod_eq_of_lt hnw
  rw [e1, e2] at h5
  replace h5 : (if (g.v.beg, sz * (g.cap * sz)) ∈ st.2.held then (do
      let s' ← (t.denote sys).dealloc st.1 g.v.beg (sz * (g.cap * sz))
      pure (s', st.2.gave g.v.beg (sz * (g.cap * sz)))) else M.ub) w4 = .ok s' w5 := h5
  split at h5
  · rename_i hmem
    obtain ⟨g1, g2, hd12, rfl, ⟨⟨hperm, _⟩, _⟩, hbl⟩ := hp
    have hgown : g.own = [(g.v.beg, g.full)] := Vec.own_pos h0
    rw [hgown] at hperm hbl
    have hlt : g.cap * sz < sz * (g.cap * sz) := by
      have hp1 : 0 < g.cap * sz := Nat.mul_pos hcap (by omega)
      have : 2 * (g.cap * sz) ≤ sz * (g.cap * sz) := Nat.mul_le_mul_right _ hz
      omega
    have hmem' := hperm.mem_iff.1 hmem
    simp only [List.singleton_append, List.map_cons, List.mem_cons] at hmem'
    rcases hmem' with hm | hm
    · have : sz * (g.cap * sz) = g.full.length := congrArg Prod.snd hm
      rw [hgo.len] at this; omega
    · rw [List.singleton_append] at hbl
      obtain ⟨k1, k2, hdk, rfl, hk1, hk2⟩ := hbl
      have hp1 : 0 < g.cap * sz := Nat.mul_pos hcap (by omega)
      refine disj_isSome hdk (x := g.v.beg) (bytesV_isSome hk1 ⟨Nat.le_refl _, ?_⟩) (blocksV_isSome hk2 ⟨_, hm, Nat.le_refl _, ?_⟩)
      · show g.v.beg < g.v.beg + g.full.length
        rw [hgo.len]; omega
      · show g.v.beg < g.v.beg + sz * (g.cap * sz)
        omega
  · cases h5

/-- **C47 is false** for every element size above one: in every reachable state, moving a vector with a block to another
allocator hands the block back with a size it was not allocated with (the ledger of C43 does not accept it). -/
theorem C47_false (sys : Sys) (t : AllocTy) (hwf : t.WF) (B : Allocator) (s : B.St) (b : Nat) (w : World)
    (hs : Storage w b t.size) (sz : Nat) (hz : 1 < sz) (ops : List VOp) (hops : VSane t sz ops) (c : Vecs (strict (t.denote sys))) (w' : World)
    (hrun : vplay sz (strict (t.denote sys)) b ops w = .ok c w') (i : Nat) (v : Vec) (hi : c.vs[i]? = some v)
    (hcap : 0 < v.capacity sz) (hnw : sz * (v.capacity sz * sz) < 2 ^ 64) (w1 w2 : World)
    (r : (strict (t.denote sys)).St × B.St × Vec) :
    Vec.moveWith sz (strict (t.denote sys)) c.st B s v w1 ≠ .ok r w2 := by
  intro hr
  obtain ⟨Γ, h, hf, hd, he, hv, hok, hp, hfb⟩ := vplay_state sys t hwf (strict_sound (t.sound sys hwf)) (t.objSize_eq sys) b w hs sz
    (by omega) ops hops c w' hrun
  obtain ⟨g, hg, rfl⟩ := vec_mem hv hi
  exact moveWith_refused hz hg (hok g (List.mem_of_getElem? hg)).rep hp hcap hnw hr

/-- The same as an accident: over `overflow_allocator<mallocator>`, which looks for its canary behind the block, moving a vector
with one 8-byte element to another allocator reads beyond the memory of the old one. -/
theorem C47_false_overflow : ((do
      let c ← vplay 8 (overflow (mallocator (demoSys .direct))) 4096 [.new, .push 0 [1, 2, 3, 4, 5, 6, 7, 8]]
      match c.vs with
      | [v] => Vec.moveWith 8 (overflow (mallocator (demoSys .direct))) c.st (mallocator (demoSys .direct)) () v
      | _ => M.oom) (demoWorld 32)).isUB = true := by decide +kernel

/-- The hypotheses of these theorems are met: a run over malloc with a vector that has room, and one that is full. -/
example : ((vplay 2 (mallocator (demoSys .direct)) 4096 [.newRange [[1, 2], [3, 4]], .reserve 0 5, .new, .push 1 [5, 6]] (demoWorld 0)).test fun c _ =>
    decide (c.vs.map (fun v => (v.size 2, v.capacity 2)) = [(2, 5), (1, 1)])) = true := by decide +kernel

example : ((vplay 2 (strict (mallocator (demoSys .direct))) 4096 [.newRange [[1, 2], [3, 4]], .reserve 0 5, .new, .push 1 [5, 6]] (demoWorld 0)).test fun c _ =>
    decide (c.vs.map (fun v => (v.size 2, v.capacity 2)) = [(2, 5), (1, 1)] ∧ c.st.2.held.length = 2)) = true := by decide +kernel

end KTL
