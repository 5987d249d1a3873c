import Verif.Containers.Vector

/- Rules for the functions of `trivial_vector` (proof machinery for C42–C49). -/
namespace KTL

/-- every element consists of `sz` bytes. Proof helper, not code. -/
def Elems (sz : Nat) (xs : List (List UInt8)) : Prop := ∀ x ∈ xs, x.length = sz

theorem Elems.nil {sz} : Elems sz [] := fun _ h => by simp at h
theorem Elems.append {sz xs ys} (h : Elems sz xs) (h' : Elems sz ys) : Elems sz (xs ++ ys) := fun x hx =>
  (List.mem_append.1 hx).elim (h x) (h' x)
theorem Elems.take {sz xs} (h : Elems sz xs) (n : Nat) : Elems sz (xs.take n) := fun x hx => h x (List.mem_of_mem_take hx)
theorem Elems.drop {sz xs} (h : Elems sz xs) (n : Nat) : Elems sz (xs.drop n) := fun x hx => h x (List.mem_of_mem_drop hx)
theorem Elems.one {sz x} (h : x.length = sz) : Elems sz [x] := fun y hy => by simp at hy; rw [hy]; exact h

theorem Elems.length {sz xs} (h : Elems sz xs) : xs.flatten.length = xs.length * sz := by
  induction xs with
  | nil => simp
  | cons x xs ih =>
    rw [List.flatten_cons, List.length_append, ih (fun y hy => h y (by simp [hy])), h x (by simp), List.length_cons, Nat.succ_mul]
    omega

theorem Elems.flatten_take {sz xs} (h : Elems sz xs) (k : Nat) : xs.flatten.take (k * sz) = (xs.take k).flatten := by
  induction xs generalizing k with
  | nil => simp
  | cons x xs ih =>
    cases k with
    | zero => simp
    | succ k =>
      have hx : x.length = sz := h x (by simp)
      rw [List.flatten_cons, List.take_succ_cons, List.flatten_cons, List.take_append, ← ih (fun y hy => h y (by simp [hy])),
        List.take_of_length_le (by rw [hx, Nat.succ_mul]; omega), hx]
      congr 2; rw [Nat.succ_mul]; omega

theorem Elems.flatten_drop {sz xs} (h : Elems sz xs) (k : Nat) : xs.flatten.drop (k * sz) = (xs.drop k).flatten := by
  induction xs generalizing k with
  | nil => simp
  | cons x xs ih =>
    cases k with
    | zero => simp
    | succ k =>
      have hx : x.length = sz := h x (by simp)
      rw [List.flatten_cons, List.drop_succ_cons, List.drop_append, ← ih (fun y hy => h y (by simp [hy])),
        List.drop_of_length_le (by rw [hx, Nat.succ_mul]; omega), hx, List.nil_append]
      congr 1; rw [Nat.succ_mul]; omega

/-- cut bytes into elements -/
theorem elems_of_bytes (sz n : Nat) (bs : List UInt8) (h : bs.length = n * sz) :
    ∃ us, us.length = n ∧ Elems sz us ∧ us.flatten = bs := by
  induction n generalizing bs with
  | zero => exact ⟨[], rfl, Elems.nil, by simp at h; simp [h]⟩
  | succ n ih =>
    rw [Nat.succ_mul] at h
    obtain ⟨us, h1, h2, h3⟩ := ih (bs.drop sz) (by simp; omega)
    refine ⟨bs.take sz :: us, by simp [h1], fun x hx => ?_, ?_⟩
    · rcases List.mem_cons.1 hx with rfl | hx
      · simp; omega
      · exact h2 x hx
    · rw [List.flatten_cons, h3, List.take_append_drop]

/-- The fields `v`, with the block contents `full`, represent the sequence `xs` with capacity `cap`.
Proof helper, not code. -/
structure Vec.Rep (sz : Nat) (v : Vec) (cap : Nat) (xs : List (List UInt8)) (full : List UInt8) : Prop where
  fin : v.fin = v.beg + xs.length * sz
  max : v.max = v.beg + cap * sz
  le : xs.length ≤ cap
  len : full.length = cap * sz
  data : full.take (xs.length * sz) = xs.flatten
  elems : Elems sz xs
  null : v.beg = 0 → cap = 0

/-- the block of a vector. Proof helper, not code. -/
def Vec.own (v : Vec) (full : List UInt8) : List (Nat × List UInt8) := if v.beg = 0 then [] else [(v.beg, full)]

theorem Vec.own_pos {v : Vec} {full} (h : v.beg ≠ 0) : v.own full = [(v.beg, full)] := if_neg h
theorem Vec.own_neg {v : Vec} {full} (h : v.beg = 0) : v.own full = [] := if_pos h

section
variable {sz : Nat} {v : Vec} {cap : Nat} {xs : List (List UInt8)} {full : List UInt8}

theorem Vec.Rep.size_eq (hz : 0 < sz) (h : v.Rep sz cap xs full) : v.size sz = xs.length := by
  unfold Vec.size; rw [h.fin, Nat.add_sub_cancel_left, Nat.mul_div_cancel _ hz]

theorem Vec.Rep.capacity_eq (hz : 0 < sz) (h : v.Rep sz cap xs full) : v.capacity sz = cap := by
  unfold Vec.capacity; rw [h.max, Nat.add_sub_cancel_left, Nat.mul_div_cancel _ hz]

theorem Vec.Rep.mul_le (h : v.Rep sz cap xs full) : xs.length * sz ≤ cap * sz := Nat.mul_le_mul_right _ h.le

theorem Vec.null_rep : Vec.null.Rep sz 0 [] [] :=
  ⟨by simp [Vec.null], by simp [Vec.null], Nat.le_refl _, by simp, by simp, Elems.nil, fun _ => rfl⟩

theorem Vec.Rep.data_eq (h : v.Rep sz cap xs full) : full = xs.flatten ++ full.drop (xs.length * sz) := by
  rw [← h.data, List.take_append_drop]

/-- reading elements -/
theorem Vec.Rep.slice (h : v.Rep sz cap xs full) (a n : Nat) (hn : a + n ≤ xs.length) :
    (full.drop (a * sz)).take (n * sz) = ((xs.drop a).take n).flatten := by
  rw [h.data_eq]
  have hl := h.elems.length
  have h1 : a * sz + n * sz ≤ xs.length * sz := by rw [← Nat.add_mul]; exact Nat.mul_le_mul_right _ hn
  rw [List.drop_append_of_le_length (by omega), h.elems.flatten_drop,
    List.take_append_of_le_length (by rw [(h.elems.drop a).length, List.length_drop, Nat.sub_mul]; omega),
    (h.elems.drop a).flatten_take]

/-- overwriting elements `k ..` by `ys`, the old elements being at least up to there -/
theorem splice_prefix (h : v.Rep sz cap xs full) (k m : Nat) (bs : List UInt8) (ys : List (List UInt8)) (hk : k ≤ xs.length)
    (hbs : bs = ys.flatten) (hys : Elems sz ys) (hm : m = k * sz) (hc : k + ys.length ≤ cap) :
    (splice full m bs).length = cap * sz ∧
    (splice full m bs).take ((k + ys.length) * sz) = (xs.take k ++ ys).flatten := by
  subst hbs hm
  have hl := hys.length
  have h0 : k * sz ≤ xs.length * sz := Nat.mul_le_mul_right _ hk
  have h1 : k * sz + ys.length * sz ≤ cap * sz := by rw [← Nat.add_mul]; exact Nat.mul_le_mul_right _ hc
  have h2 := h.len
  refine ⟨by rw [splice_length (by omega)]; exact h2, ?_⟩
  unfold splice
  have h3 : full.take (k * sz) = (xs.take k).flatten := by
    rw [← h.elems.flatten_take, ← h.data, List.take_take, Nat.min_eq_left h0]
  have h4 : (full.take (k * sz)).length = k * sz := by rw [List.length_take]; omega
  rw [Nat.add_mul, List.take_append, h4, List.take_of_length_le (l := full.take (k * sz)) (by rw [h4]; omega), Nat.add_sub_cancel_left,
    List.take_append_of_le_length (by omega), List.take_of_length_le (l := ys.flatten) (by omega), h3, List.flatten_append]
end

section
variable {A : Allocator} {fA : Nat → Prop} {hA : Sound A fA} {b : Nat} {s : A.St} {sz : Nat} {v : Vec} {cap : Nat}
  {xs : List (List UInt8)} {full : List UInt8} {R : List (Nat × List UInt8)}

/-- freeing the block of a vector -/
theorem Vec.destroy_spec (hz : 0 < sz) (hv : v.Rep sz cap xs full) (hc : sz * cap < W64) :
    Triple (Pool hA b s (v.own full ++ R)) (v.destroy sz A s) (fun s' => Pool hA b s' R) := by
  unfold Vec.destroy
  by_cases h : v.beg = 0
  · rw [if_neg (by simp [h]), Vec.own_neg h]
    exact Triple.pure _ (fun x hx => hx)
  · rw [if_pos h, Vec.own_pos h, hv.capacity_eq hz]
    exact triple_ungrab sz cap v.beg full _ R (.refl _) (by rw [hv.len, Nat.mul_comm]) hc

/-- the three constructors' common part -/
theorem Vec.ofSize_spec (n : Nat) (hf : fA (sz * n)) (hn : sz * n < W64) :
    Triple (Pool hA b s R) (Vec.ofSize sz A s n) (fun r x => ∃ full us, us.length = n ∧ r.2.Rep sz n us full ∧
      Pool hA b r.1 (r.2.own full ++ R) x) := by
  unfold Vec.ofSize
  refine Triple.bind (triple_grab sz n R hf hn) (fun r => ?_)
  refine Triple.pure _ (fun x hx => ?_)
  rcases hx with ⟨h0, rfl, h1⟩ | ⟨hg, bs, hl, h1⟩
  · refine ⟨[], [], rfl, ⟨by simp, by simp, Nat.le_refl _, by simp, by simp, Elems.nil, fun _ => rfl⟩, ?_⟩
    rw [Vec.own_neg h0]; exact h1
  · obtain ⟨us, h2, h3, h4⟩ := elems_of_bytes sz n bs (by rw [hl, Nat.mul_comm])
    refine ⟨bs, us, h2, ⟨by simp [h2], by simp, by omega, by rw [hl, Nat.mul_comm], ?_, h3, fun h => absurd h hg.1⟩, ?_⟩
    · rw [h4, h2, List.take_of_length_le]; rw [hl, Nat.mul_comm]; omega
    · rw [Vec.own_pos hg.1]; exact h1

/-- an argument that denotes `bs`: a value of the caller, or bytes of one of the blocks in `R`.
Proof helper, not code. -/
def ArgOk (x : Arg) (bs : List UInt8) (R : List (Nat × List UInt8)) : Prop :=
  x = .val bs ∨ ∃ q cs off, x = .ref (q + off) ∧ (q, cs) ∈ R ∧ off + bs.length ≤ cs.length ∧ bs = (cs.drop off).take bs.length

theorem ArgOk.mono {x : Arg} {bs R R'} (h : ArgOk x bs R) (hs : ∀ y ∈ R, y ∈ R') : ArgOk x bs R' := by
  rcases h with h | ⟨q, cs, off, h1, h2, h3⟩
  · exact .inl h
  · exact .inr ⟨q, cs, off, h1, hs _ h2, h3⟩

theorem triple_fetch {x : Arg} {bs : List UInt8} (h : ArgOk x bs R) :
    Triple (Pool hA b s R) (x.fetch bs.length) (fun r y => r = bs ∧ Pool hA b s R y) := by
  rcases h with rfl | ⟨q, cs, off, rfl, h2, h3, h4⟩
  · exact Triple.pure _ (fun y hy => ⟨rfl, hy⟩)
  · obtain ⟨i, hi⟩ := List.getElem?_of_mem h2
    have := triple_poolRead (hA := hA) (b := b) (s := s) q off bs.length cs R (R.eraseIdx i) (perm_eraseIdx hi) h3
    rw [← h4] at this
    exact this

theorem triple_argCopy {x : Arg} {bs : List UInt8} (h : ArgOk x bs R) (p off : Nat) (hn : off + bs.length ≤ full.length) :
    Triple (Pool hA b s ((p, full) :: R)) (x.copy (p + off) bs.length) (fun _ => Pool hA b s ((p, splice full off bs) :: R)) := by
  rcases h with rfl | ⟨q, cs, off', rfl, h2, h3, h4⟩
  · exact triple_poolWrite p off full bs _ R (.refl _) hn
  · obtain ⟨i, hi⟩ := List.getElem?_of_mem h2
    have hp := perm_eraseIdx hi
    have := triple_poolCopy (hA := hA) (b := b) (s := s) p off q off' bs.length full cs _ (R.eraseIdx i) (hp.cons (p, full)) hn h3
    rw [← h4] at this
    refine this.post (fun _ y hy => ?_)
    rw [Pool.perm (hp.cons _)]; exact hy

/-- writing nothing to nowhere -/
theorem triple_argCopy_zero {x : Arg} (h : ArgOk x [] R) (p : Nat) :
    Triple (Pool hA b s R) (x.copy p 0) (fun _ => Pool hA b s R) := by
  rcases h with rfl | ⟨q, cs, off', rfl, h2, h3, h4⟩
  · exact Triple.pure _ (fun y hy => hy)
  · show Triple _ (M.memcpy p (q + off') 0) _
    unfold M.memcpy
    rw [if_neg (by omega)]
    exact Triple.pure _ (fun y hy => hy)

/-- constructors from values -/
theorem Vec.ofRange_spec (hz : 0 < sz) (ys : List (List UInt8)) (src : Arg) (hs : ArgOk src ys.flatten R) (hy : Elems sz ys)
    (hf : fA (sz * ys.length)) (hn : sz * ys.length < W64) :
    Triple (Pool hA b s R) (Vec.ofRange sz A s ys.length src) (fun r x => ∃ full, r.2.Rep sz ys.length ys full ∧
      Pool hA b r.1 (r.2.own full ++ R) x) := by
  unfold Vec.ofRange
  refine Triple.bind (Vec.ofSize_spec ys.length hf hn) (fun r => ?_)
  refine Triple.exists (fun full => Triple.exists (fun us => Triple.and (fun hu => Triple.and (fun hr => ?_))))
  rw [← hy.length]
  by_cases h0 : r.2.beg = 0
  · have hl : ys.length = 0 := hr.null h0
    have he : ys = [] := List.length_eq_zero_iff.1 hl
    have hu' : us = [] := List.length_eq_zero_iff.1 (by omega)
    subst he hu'
    refine Triple.bind (R := fun _ => Pool hA b r.1 (r.2.own full ++ R)) ?_ (fun _ => Triple.pure _ (fun x hx => ⟨full, hr, hx⟩))
    rw [Vec.own_neg h0]
    exact triple_argCopy_zero hs _
  · rw [Vec.own_pos h0]
    have hlen : 0 + ys.flatten.length ≤ full.length := by rw [hr.len, hy.length]; omega
    refine Triple.bind (triple_argCopy hs r.2.beg 0 hlen) (fun _ => Triple.pure _ (fun x hx => ?_))
    have hp := splice_prefix hr 0 0 _ ys (by omega) rfl hy (by simp) (by omega)
    refine ⟨splice full 0 ys.flatten, ⟨by rw [hr.fin, hu], hr.max, Nat.le_refl _, hp.1, ?_, hy, hr.null⟩, ?_⟩
    · have := hp.2; simpa using this
    · rw [Vec.own_pos h0]; exact hx

theorem Elems.replicate {x : List UInt8} (h : x.length = sz) (n : Nat) : Elems sz (List.replicate n x) := fun y hy => by
  rw [(List.mem_replicate.1 hy).2]; exact h

theorem Vec.ofFill_spec (hz : 0 < sz) (n : Nat) (y : List UInt8) (x : Arg) (hs : ArgOk x y R) (hy : y.length = sz)
    (hf : fA (sz * n)) (hn : sz * n < W64) :
    Triple (Pool hA b s R) (Vec.ofFill sz A s n x) (fun r z => ∃ full, r.2.Rep sz n (List.replicate n y) full ∧
      Pool hA b r.1 (r.2.own full ++ R) z) := by
  unfold Vec.ofFill
  refine Triple.bind (Vec.ofSize_spec n hf hn) (fun r => ?_)
  refine Triple.exists (fun full => Triple.exists (fun us => Triple.and (fun hu => Triple.and (fun hr => ?_))))
  by_cases hn0 : n = 0
  · subst hn0
    have hu' : us = [] := List.length_eq_zero_iff.1 (by omega)
    subst hu'
    simp only [if_true, List.replicate_zero, List.flatten_nil]
    refine Triple.bind (R := fun _ => Pool hA b r.1 (r.2.own full ++ R)) (Triple.pure _ (fun _ h => h)) (fun _ => ?_)
    refine Triple.bind (R := fun _ => Pool hA b r.1 (r.2.own full ++ R)) (Triple.pure _ (fun _ h => h)) (fun _ => ?_)
    exact Triple.pure _ (fun x hx => ⟨full, hr, hx⟩)
  · rw [if_neg hn0, ← hy]
    have h0 : r.2.beg ≠ 0 := fun h => hn0 (hr.null h)
    rw [Vec.own_pos h0]
    refine Triple.bind (triple_fetch (hs.mono (by simp; intros; right; assumption))) (fun y' => ?_)
    refine Triple.and (fun e => ?_)
    subst e
    have hE := Elems.replicate hy n
    have hlen : 0 + (List.replicate n y').flatten.length ≤ full.length := by rw [hr.len, hE.length]; simp
    refine Triple.bind (triple_poolWrite r.2.beg 0 full _ _ R (.refl _) hlen) (fun _ => Triple.pure _ (fun x hx => ?_))
    have hp := splice_prefix hr 0 0 _ (List.replicate n y') (by omega) rfl hE (by simp) (by simp)
    rw [hy]
    refine ⟨splice full 0 (List.replicate n y').flatten, ⟨by rw [hr.fin, hu]; simp, hr.max, by simp, hp.1, ?_, hE, hr.null⟩, ?_⟩
    · have := hp.2; simpa using this
    · rw [Vec.own_pos h0]; exact hx

/-- copy constructor; `o` is one of the vectors whose blocks are in `R` -/
theorem Vec.copy_spec (hz : 0 < sz) (hv : v.Rep sz cap xs full) (hf : fA (sz * xs.length)) (hn : sz * xs.length < W64)
    (hR : ∀ y ∈ v.own full, y ∈ R) :
    Triple (Pool hA b s R) (Vec.copy sz A s v) (fun r x => ∃ full', r.2.Rep sz xs.length xs full' ∧
      Pool hA b r.1 (r.2.own full' ++ R) x) := by
  by_cases h0 : v.beg = 0
  · have hx : xs = [] := List.length_eq_zero_iff.1 (by have := hv.null h0; have := hv.le; omega)
    subst hx
    unfold Vec.copy
    rw [hv.size_eq hz]
    refine Triple.bind (Vec.ofSize_spec 0 hf hn) (fun r => ?_)
    refine Triple.exists (fun full' => Triple.exists (fun us => Triple.and (fun hu => Triple.and (fun hr => ?_))))
    have hu' : us = [] := List.length_eq_zero_iff.1 hu
    subst hu'
    rw [if_neg (by simp [h0])]
    exact Triple.pure _ (fun x hx => ⟨full', hr, hx⟩)
  · have h := Vec.ofRange_spec (hA := hA) (b := b) (s := s) (R := R) hz xs (.ref (v.beg + 0))
      (.inr ⟨v.beg, full, 0, rfl, hR _ (by rw [Vec.own_pos h0]; simp), by rw [hv.elems.length, hv.len, Nat.zero_add]; exact hv.mul_le,
        by rw [hv.elems.length, List.drop_zero, hv.data]⟩) hv.elems hf hn
    unfold Vec.copy
    rw [hv.size_eq hz]
    simp only [ne_eq, h0, not_false_eq_true, if_true]
    exact h

theorem Vec.setSize_spec (hz : 0 < sz) (hv : v.Rep sz cap xs full) (hc : sz * cap < W64) (n : Nat) (hn0 : n ≠ 0) (hx : xs.length ≤ n)
    (hf : fA (sz * n)) (hn : sz * n < W64) :
    Triple (Pool hA b s (v.own full ++ R)) (v.setSize sz A s n) (fun r x => r.2.beg ≠ 0 ∧ ∃ full', r.2.Rep sz n xs full' ∧
      Pool hA b r.1 (r.2.own full' ++ R) x) := by
  unfold Vec.setSize
  rw [hv.size_eq hz, Nat.min_eq_left hx]
  refine Triple.bind (triple_grab sz n _ hf hn) (fun r => ?_)
  refine Triple.or (Triple.and fun _ => Triple.and fun h => absurd h hn0) ?_
  refine Triple.and fun hg => Triple.exists fun bs => Triple.and fun hl => ?_
  have hle : xs.length * sz ≤ sz * n := by rw [Nat.mul_comm]; exact Nat.mul_le_mul_left _ hx
  have hbase : (⟨r.1, r.1 + xs.length * sz, r.1 + n * sz⟩ : Vec).Rep sz n xs (splice bs 0 xs.flatten) := by
    have hlen : (splice bs 0 xs.flatten).length = bs.length := splice_length (by rw [hv.elems.length, hl]; omega)
    refine ⟨rfl, rfl, hx, by rw [hlen, hl, Nat.mul_comm], ?_, hv.elems, fun h => absurd h hg.1⟩
    unfold splice
    rw [List.take_zero, List.nil_append, List.take_append_of_le_length (by rw [hv.elems.length]; omega),
      List.take_of_length_le (by rw [hv.elems.length]; omega)]
  by_cases h0 : v.beg = 0
  · have hxe : xs = [] := List.length_eq_zero_iff.1 (by have := hv.null h0; have := hv.le; omega)
    subst hxe
    rw [if_neg (by simp [h0]), Vec.own_neg h0]
    refine Triple.pure _ (fun x hx' => ⟨hg.1, _, hbase, ?_⟩)
    rw [Vec.own_pos hg.1]
    have e : splice bs 0 ([] : List (List UInt8)).flatten = bs := by simp [splice]
    rw [e]; exact hx'
  · rw [if_pos h0, Vec.own_pos h0, hv.capacity_eq hz]
    have hd : (full.drop 0).take (xs.length * sz) = xs.flatten := by rw [List.drop_zero, hv.data]
    refine Triple.bind (triple_poolCopy r.1 0 v.beg 0 (xs.length * sz) bs full _ R (.refl _) (by omega)
        (by rw [hv.len]; have := hv.mul_le; omega)) (fun _ => ?_)
    rw [hd]
    refine Triple.bind (triple_ungrab sz cap v.beg full _ _ (.swap _ _ _) (by rw [hv.len, Nat.mul_comm]) hc) (fun s' => ?_)
    · refine Triple.pure _ (fun x hx' => ⟨hg.1, _, hbase, ?_⟩)
      rw [Vec.own_pos hg.1]; exact hx'

theorem Vec.expand_spec (hz : 0 < sz) (hv : v.Rep sz cap xs full) (hc : sz * cap < W64) (n n' : Nat) (hn0 : n ≠ 0)
    (hn' : n' = cap + Max.max (cap / 2) n)
    (hf : fA (sz * n')) (hn : sz * n' < W64) :
    Triple (Pool hA b s (v.own full ++ R)) (v.expand sz A s n) (fun r x => r.2.beg ≠ 0 ∧ ∃ full', r.2.Rep sz n' xs full' ∧
      Pool hA b r.1 (r.2.own full' ++ R) x) := by
  unfold Vec.expand
  rw [hv.capacity_eq hz, ← hn']
  exact Vec.setSize_spec hz hv hc n' (by omega) (by have := hv.le; omega) hf hn

/-- the storage after `push_back(n elements)`. Proof helper, not code. -/
def grown (cap size n : Nat) : Nat := if cap - size < n then cap + Max.max (cap / 2) n else cap

/-- appending in place (there is room) -/
theorem Vec.append_rep (hv : v.Rep sz cap xs full) (h0 : v.beg ≠ 0) (ys : List (List UInt8)) (hy : Elems sz ys)
    (hc : xs.length + ys.length ≤ cap) (v' : Vec) (hv' : v' = { v with fin := v.fin + ys.length * sz }) :
    v'.Rep sz cap (xs ++ ys) (splice full (xs.length * sz) ys.flatten) := by
  have hp := splice_prefix hv xs.length _ _ ys (Nat.le_refl _) rfl hy rfl hc
  subst hv'
  refine ⟨?_, hv.max, by simp; omega, hp.1, ?_, hv.elems.append hy, hv.null⟩
  · show v.fin + _ = _
    rw [hv.fin, List.length_append, Nat.add_mul]
    show _ = v.beg + _
    omega
  · rw [List.length_append, hp.2, List.take_length]

/-- room is left iff `m_End ≠ m_EndMax` -/
theorem Vec.Rep.full_iff (hz : 0 < sz) (hv : v.Rep sz cap xs full) : v.fin = v.max ↔ cap - xs.length < 1 := by
  rw [hv.fin, hv.max]
  have := hv.le
  constructor
  · intro h
    have : xs.length * sz = cap * sz := by omega
    have := Nat.eq_of_mul_eq_mul_right hz this
    omega
  · intro h
    have : xs.length = cap := by omega
    rw [this]

theorem Vec.Rep.room (hz : 0 < sz) (hv : v.Rep sz cap xs full) : (v.max - v.fin) / sz = cap - xs.length := by
  rw [hv.fin, hv.max, show v.beg + cap * sz - (v.beg + xs.length * sz) = (cap - xs.length) * sz by rw [Nat.sub_mul]; omega,
    Nat.mul_div_cancel _ hz]

/-- the part of `push_back` after growing -/
theorem Vec.pushTail_spec (hv : v.Rep sz cap xs full) (h0 : v.beg ≠ 0) (y : List UInt8) (x : Arg)
    (hs : ArgOk x y (v.own full ++ R)) (hy : y.length = sz) (hc : xs.length + 1 ≤ cap) :
    Triple (Pool hA b s (v.own full ++ R)) (do
      let bs ← x.fetch sz
      M.writeBytes v.fin bs
      pure ((v.fin, s, { v with fin := v.fin + sz }) : Nat × A.St × Vec))
      (fun r z => r.1 = r.2.2.beg + xs.length * sz ∧ ∃ full', r.2.2.Rep sz cap (xs ++ [y]) full' ∧
        Pool hA b r.2.1 (r.2.2.own full' ++ R) z) := by
  rw [← hy]
  refine Triple.bind (triple_fetch hs) (fun bs => Triple.and (fun e => ?_))
  subst e
  rw [Vec.own_pos h0, hy, hv.fin]
  have h1 : xs.length * sz + bs.length ≤ full.length := by
    have : (xs.length + 1) * sz ≤ cap * sz := Nat.mul_le_mul_right _ hc
    rw [hv.len, hy]; rw [Nat.add_mul] at this; omega
  refine Triple.bind (triple_poolWrite v.beg (xs.length * sz) full bs _ R (.refl _) h1) (fun _ => Triple.pure _ (fun z hz => ?_))
  refine ⟨rfl, splice full (xs.length * sz) bs, ?_, ?_⟩
  · have := Vec.append_rep hv h0 [bs] (Elems.one hy) (by simpa using hc) _ rfl
    simp only [List.length_singleton, Nat.one_mul, List.flatten_singleton, hv.fin] at this
    exact this
  · rw [Vec.own_pos (show ({ v with fin := v.beg + xs.length * sz + sz } : Vec).beg ≠ 0 from h0)]
    exact hz

/-- `push_back` of a value that is not inside the vector's own block -/
theorem Vec.pushBack_spec (hz : 0 < sz) (hv : v.Rep sz cap xs full) (hc : sz * cap < W64) (y : List UInt8) (x : Arg)
    (hs : ArgOk x y R) (hy : y.length = sz)
    (hf : xs.length = cap → fA (sz * grown cap xs.length 1)) (hn : sz * grown cap xs.length 1 < W64) :
    Triple (Pool hA b s (v.own full ++ R)) (v.pushBack sz A s x)
      (fun r z => r.1 = r.2.2.beg + xs.length * sz ∧ ∃ full', r.2.2.Rep sz (grown cap xs.length 1) (xs ++ [y]) full' ∧
        Pool hA b r.2.1 (r.2.2.own full' ++ R) z) := by
  unfold Vec.pushBack
  have hm : ∀ l : List (Nat × List UInt8), ∀ y ∈ R, y ∈ l ++ R := fun l y h => List.mem_append_right _ h
  have hle := hv.le
  by_cases hfull : v.fin = v.max
  · rw [if_pos hfull]
    have h1 := (hv.full_iff hz).1 hfull
    have hg : grown cap xs.length 1 = cap + Max.max (cap / 2) 1 := if_pos h1
    have hf := hf (by omega)
    rw [hg] at hf hn ⊢
    refine Triple.bind (Vec.expand_spec hz hv hc 1 _ (by omega) rfl hf hn) (fun r => ?_)
    refine Triple.and fun h0 => Triple.exists fun full' => Triple.and fun hr => ?_
    exact Vec.pushTail_spec hr h0 y x (hs.mono (hm _)) hy (by omega)
  · rw [if_neg hfull]
    have h1 := mt (hv.full_iff hz).2 hfull
    have hg : grown cap xs.length 1 = cap := if_neg h1
    rw [hg] at hn ⊢
    have h0 : v.beg ≠ 0 := fun h => by have := hv.null h; omega
    refine Triple.bind (Triple.pure (Q := fun r z => r = (s, v) ∧ Pool hA b s (v.own full ++ R) z) _ (fun z hz => ⟨rfl, hz⟩)) (fun r => ?_)
    refine Triple.and fun e => ?_
    subst e
    exact Vec.pushTail_spec hv h0 y x (hs.mono (hm _)) hy (by omega)

/-- `push_back` when there is room; the argument may be inside the vector -/
theorem Vec.pushBack_room (hz : 0 < sz) (hv : v.Rep sz cap xs full) (y : List UInt8) (x : Arg)
    (hs : ArgOk x y (v.own full ++ R)) (hy : y.length = sz) (hroom : xs.length < cap) :
    Triple (Pool hA b s (v.own full ++ R)) (v.pushBack sz A s x)
      (fun r z => r.1 = r.2.2.beg + xs.length * sz ∧ ∃ full', r.2.2.Rep sz cap (xs ++ [y]) full' ∧
        Pool hA b r.2.1 (r.2.2.own full' ++ R) z) := by
  unfold Vec.pushBack
  have hfull : ¬ v.fin = v.max := fun h => by have := (hv.full_iff hz).1 h; omega
  rw [if_neg hfull]
  have h0 : v.beg ≠ 0 := fun h => by have := hv.null h; omega
  refine Triple.bind (Triple.pure (Q := fun r z => r = (s, v) ∧ Pool hA b s (v.own full ++ R) z) _ (fun z hz => ⟨rfl, hz⟩)) (fun r => ?_)
  refine Triple.and fun e => ?_
  subst e
  exact Vec.pushTail_spec hv h0 y x hs hy (by omega)

/-- the part of the range `push_back` after growing -/
theorem Vec.rangeTail_spec (hv : v.Rep sz cap xs full) (ys : List (List UInt8)) (x : Arg)
    (hs : ArgOk x ys.flatten R) (hy : Elems sz ys) (hc : xs.length + ys.length ≤ cap) :
    Triple (Pool hA b s (v.own full ++ R)) (do
      x.copy v.fin (ys.length * sz)
      pure ((v.fin, s, { v with fin := v.fin + ys.length * sz }) : Nat × A.St × Vec))
      (fun r z => r.1 = r.2.2.beg + xs.length * sz ∧ ∃ full', r.2.2.Rep sz cap (xs ++ ys) full' ∧
        Pool hA b r.2.1 (r.2.2.own full' ++ R) z) := by
  rw [← hy.length]
  by_cases h0 : v.beg = 0
  · have hcap := hv.null h0
    have e1 : ys = [] := List.length_eq_zero_iff.1 (by omega)
    subst e1
    rw [Vec.own_neg h0]
    refine Triple.bind (triple_argCopy_zero hs _) (fun _ => Triple.pure _ (fun z hz => ?_))
    refine ⟨hv.fin, full, ?_, ?_⟩
    · rw [List.append_nil]; exact hv
    · rw [Vec.own_neg (by exact h0)]; exact hz
  · rw [Vec.own_pos h0]
    have h1 : xs.length * sz + ys.flatten.length ≤ full.length := by
      have : (xs.length + ys.length) * sz ≤ cap * sz := Nat.mul_le_mul_right _ hc
      rw [hv.len, hy.length]; rw [Nat.add_mul] at this; omega
    rw [hv.fin]
    refine Triple.bind (triple_argCopy hs v.beg _ h1) (fun _ => Triple.pure _ (fun z hz => ?_))
    refine ⟨rfl, splice full (xs.length * sz) ys.flatten, ?_, ?_⟩
    · exact Vec.append_rep hv h0 ys hy hc _ (by rw [hy.length, hv.fin])
    · rw [Vec.own_pos (show ({ v with fin := v.beg + xs.length * sz + ys.flatten.length } : Vec).beg ≠ 0 from h0)]
      exact hz

theorem Vec.pushRange_spec (hz : 0 < sz) (hv : v.Rep sz cap xs full) (hc : sz * cap < W64) (ys : List (List UInt8)) (x : Arg)
    (hs : ArgOk x ys.flatten R) (hy : Elems sz ys)
    (hf : cap - xs.length < ys.length → fA (sz * grown cap xs.length ys.length)) (hn : sz * grown cap xs.length ys.length < W64) :
    Triple (Pool hA b s (v.own full ++ R)) (v.pushRange sz A s ys.length x)
      (fun r z => r.1 = r.2.2.beg + xs.length * sz ∧ ∃ full', r.2.2.Rep sz (grown cap xs.length ys.length) (xs ++ ys) full' ∧
        Pool hA b r.2.1 (r.2.2.own full' ++ R) z) := by
  unfold Vec.pushRange
  have hle := hv.le
  rw [hv.room hz]
  by_cases hlt : cap - xs.length < ys.length
  · rw [if_pos hlt]
    have hg : grown cap xs.length ys.length = cap + Max.max (cap / 2) ys.length := if_pos hlt
    have hf := hf hlt
    rw [hg] at hf hn ⊢
    refine Triple.bind (Vec.expand_spec hz hv hc ys.length _ (by omega) rfl hf hn) (fun r => ?_)
    refine Triple.and fun h0 => Triple.exists fun full' => Triple.and fun hr => ?_
    exact Vec.rangeTail_spec hr ys x hs hy (by omega)
  · rw [if_neg hlt]
    have hg : grown cap xs.length ys.length = cap := if_neg hlt
    rw [hg] at hn ⊢
    refine Triple.bind (Triple.pure (Q := fun r z => r = (s, v) ∧ Pool hA b s (v.own full ++ R) z) _ (fun z hz => ⟨rfl, hz⟩)) (fun r => ?_)
    refine Triple.and fun e => ?_
    subst e
    exact Vec.rangeTail_spec hv ys x hs hy (by omega)

theorem Vec.eraseRange_spec (hz : 0 < sz) (hv : v.Rep sz cap xs full) (h0 : v.beg ≠ 0) (a n : Nat) (han : a + n ≤ xs.length) :
    Triple (Pool hA b s (v.own full ++ R)) (v.eraseRange sz (v.beg + a * sz) (v.beg + (a + n) * sz))
      (fun r z => (r.1 = r.2.beg + a * sz ∧ r.2.beg ≠ 0) ∧ ∃ full', r.2.Rep sz cap (xs.take a ++ xs.drop (a + n)) full' ∧
        Pool hA b s (r.2.own full' ++ R) z) := by
  unfold Vec.eraseRange
  have hle := hv.mul_le
  have h1 : (a + n) * sz ≤ xs.length * sz := Nat.mul_le_mul_right _ han
  have h2 : a * sz ≤ (a + n) * sz := Nat.mul_le_mul_right _ (by omega)
  have e1 : (v.fin - (v.beg + (a + n) * sz)) / sz = xs.length - (a + n) := by
    rw [hv.fin, show v.beg + xs.length * sz - (v.beg + (a + n) * sz) = (xs.length - (a + n)) * sz by rw [Nat.sub_mul]; omega,
      Nat.mul_div_cancel _ hz]
  rw [e1, Vec.own_pos h0]
  have e2 : (xs.length - (a + n)) * sz = xs.length * sz - (a + n) * sz := Nat.sub_mul _ _ _
  refine Triple.bind (triple_poolMove v.beg (a * sz) ((a + n) * sz) ((xs.length - (a + n)) * sz) full _ R (.refl _)
    (by rw [hv.len]; omega) (by rw [hv.len]; omega)) (fun _ => Triple.pure _ (fun z hz' => ?_))
  have hsl := hv.slice (a + n) (xs.length - (a + n)) (by omega)
  rw [List.take_of_length_le (l := xs.drop (a + n)) (by simp)] at hsl
  rw [hsl] at hz'
  have hlen : a + (xs.drop (a + n)).length ≤ cap := by rw [List.length_drop]; have := hv.le; omega
  have hp := splice_prefix hv a (a * sz) _ (xs.drop (a + n)) (by omega) rfl (hv.elems.drop _) rfl hlen
  have hl2 : (xs.take a ++ xs.drop (a + n)).length = a + (xs.drop (a + n)).length := by
    rw [List.length_append, List.length_take]; omega
  refine ⟨⟨rfl, h0⟩, splice full (a * sz) (xs.drop (a + n)).flatten, ⟨?_, hv.max, by rw [hl2]; exact hlen, hp.1, ?_,
    (hv.elems.take _).append (hv.elems.drop _), hv.null⟩, ?_⟩
  · show v.fin - _ = v.beg + _
    rw [hl2, List.length_drop, hv.fin, Nat.add_mul a (xs.length - (a + n)), e2]
    omega
  · rw [hl2, hp.2]
  · rw [Vec.own_pos (by exact h0)]; exact hz'

theorem Vec.erase_eq (hz : 0 < sz) (hv : v.Rep sz cap xs full) (k : Nat) (hk : k < xs.length) :
    v.erase sz (v.beg + k * sz) = v.eraseRange sz (v.beg + k * sz) (v.beg + (k + 1) * sz) := by
  unfold Vec.erase Vec.eraseRange
  have h1 : (k + 1) * sz ≤ xs.length * sz := Nat.mul_le_mul_right _ hk
  have h3 : (k + 1) * sz = k * sz + sz := Nat.succ_mul _ _
  have e1 : (v.fin - (v.beg + (k + 1) * sz)) / sz = xs.length - (k + 1) := by
    rw [hv.fin, show v.beg + xs.length * sz - (v.beg + (k + 1) * sz) = (xs.length - (k + 1)) * sz by rw [Nat.sub_mul]; omega,
      Nat.mul_div_cancel _ hz]
  have e2 : (v.fin - (v.beg + k * sz)) / sz = xs.length - k := by
    rw [hv.fin, show v.beg + xs.length * sz - (v.beg + k * sz) = (xs.length - k) * sz by rw [Nat.sub_mul]; omega,
      Nat.mul_div_cancel _ hz]
  rw [e1, e2, show v.beg + k * sz + sz = v.beg + (k + 1) * sz by omega,
    show v.beg + (k + 1) * sz - (v.beg + k * sz) = sz by omega, show xs.length - k - 1 = xs.length - (k + 1) by omega]

/-- the capacity after `resize(n)`. Proof helper, not code. -/
def resized (cap n : Nat) : Nat := if cap < n then cap + Max.max (cap / 2) (n - cap) else cap

theorem Vec.resize_rep (hv : v.Rep sz cap xs full) (n : Nat) (hn : n ≤ cap) :
    ∃ us, us.length = n - xs.length ∧ Elems sz us ∧ ({ v with fin := v.beg + n * sz } : Vec).Rep sz cap (xs.take n ++ us) full := by
  have hle := hv.le
  have h1 : n * sz ≤ cap * sz := Nat.mul_le_mul_right _ hn
  have h2 := hv.mul_le
  obtain ⟨us, hu1, hu2, hu3⟩ := elems_of_bytes sz (n - xs.length) ((full.drop (xs.length * sz)).take ((n - xs.length) * sz)) (by
    rw [List.length_take, List.length_drop, hv.len, Nat.sub_mul]; omega)
  have hl : (xs.take n ++ us).length = n := by rw [List.length_append, List.length_take, hu1]; omega
  refine ⟨us, hu1, hu2, ⟨by rw [hl], hv.max, by rw [hl]; exact hn, hv.len, ?_, (hv.elems.take _).append hu2, hv.null⟩⟩
  rw [hl, List.flatten_append, hu3, ← hv.elems.flatten_take]
  by_cases hc : n ≤ xs.length
  · have h3 : n * sz ≤ xs.length * sz := Nat.mul_le_mul_right _ hc
    rw [show n - xs.length = 0 by omega, Nat.zero_mul, List.take_zero, List.append_nil, ← hv.data, List.take_take, Nat.min_eq_left h3]
  · have h3 : xs.length * sz ≤ n * sz := Nat.mul_le_mul_right _ (by omega)
    rw [List.take_of_length_le (l := xs.flatten) (by rw [hv.elems.length]; exact h3), ← hv.data, ← List.take_add]
    congr 1; rw [Nat.sub_mul]; omega

theorem Vec.resize_spec (hz : 0 < sz) (hv : v.Rep sz cap xs full) (hc : sz * cap < W64) (n : Nat)
    (hf : cap < n → fA (sz * resized cap n)) (hn : sz * resized cap n < W64) :
    Triple (Pool hA b s (v.own full ++ R)) (v.resize sz A s n)
      (fun r z => ∃ us full', us.length = n - xs.length ∧ Elems sz us ∧ r.2.Rep sz (resized cap n) (xs.take n ++ us) full' ∧
        Pool hA b r.1 (r.2.own full' ++ R) z) := by
  unfold Vec.resize
  rw [hv.capacity_eq hz]
  by_cases hlt : cap < n
  · rw [if_pos hlt]
    have hg : resized cap n = cap + Max.max (cap / 2) (n - cap) := if_pos hlt
    have hf := hf hlt
    rw [hg] at hf hn ⊢
    refine Triple.bind (Vec.expand_spec hz hv hc (n - cap) _ (by omega) rfl hf hn) (fun r => ?_)
    refine Triple.and fun h0 => Triple.exists fun full' => Triple.and fun hr => Triple.pure _ (fun z hz' => ?_)
    obtain ⟨us, h1, h2, h3⟩ := Vec.resize_rep hr n (by omega)
    refine ⟨us, full', h1, h2, h3, ?_⟩
    rw [Vec.own_pos (by exact h0)]; rw [Vec.own_pos h0] at hz'; exact hz'
  · rw [if_neg hlt]
    have hg : resized cap n = cap := if_neg hlt
    rw [hg] at hn ⊢
    refine Triple.bind (Triple.pure (Q := fun r z => r = (s, v) ∧ Pool hA b s (v.own full ++ R) z) _ (fun z hz => ⟨rfl, hz⟩)) (fun r => ?_)
    refine Triple.and fun e => ?_
    subst e
    refine Triple.pure _ (fun z hz' => ?_)
    obtain ⟨us, h1, h2, h3⟩ := Vec.resize_rep hv n (by omega)
    exact ⟨us, full, h1, h2, h3, hz'⟩

theorem Vec.reserve_spec (hz : 0 < sz) (hv : v.Rep sz cap xs full) (hc : sz * cap < W64) (n : Nat)
    (hf : cap < n → fA (sz * n)) (hn : cap < n → sz * n < W64) :
    Triple (Pool hA b s (v.own full ++ R)) (v.reserve sz A s n)
      (fun r z => ∃ full', r.2.Rep sz (Max.max cap n) xs full' ∧ Pool hA b r.1 (r.2.own full' ++ R) z) := by
  unfold Vec.reserve
  rw [hv.capacity_eq hz]
  by_cases hlt : cap < n
  · rw [if_pos hlt, Nat.max_eq_right (by omega)]
    exact (Vec.setSize_spec hz hv hc n (by omega) (by have := hv.le; omega) (hf hlt) (hn hlt)).post (fun r z hz => hz.2)
  · rw [if_neg hlt, Nat.max_eq_left (by omega)]
    exact Triple.pure _ (fun z hz => ⟨full, hv, hz⟩)

theorem Vec.clear_rep (hv : v.Rep sz cap xs full) : v.clear.Rep sz cap [] full :=
  ⟨by simp [Vec.clear], hv.max, Nat.zero_le _, hv.len, by simp, Elems.nil, hv.null⟩

theorem Vec.Rep.pos_of_index (hv : v.Rep sz cap xs full) {k : Nat} (hk : k < xs.length) : v.beg ≠ 0 :=
  fun h => by have := hv.null h; have := hv.le; omega

theorem Vec.write_spec (hv : v.Rep sz cap xs full) (k : Nat) (x : List UInt8) (hk : k < xs.length) (hx : x.length = sz) :
    Triple (Pool hA b s (v.own full ++ R)) (v.write sz k x)
      (fun _ z => ∃ full', v.Rep sz cap (xs.set k x) full' ∧ Pool hA b s (v.own full' ++ R) z) := by
  unfold Vec.write
  have h0 := hv.pos_of_index hk
  rw [Vec.own_pos h0]
  have hle := hv.le
  have hmul := hv.mul_le
  have h1 : (k + 1) * sz ≤ xs.length * sz := Nat.mul_le_mul_right _ hk
  have h3 : (k + 1) * sz = k * sz + sz := Nat.succ_mul _ _
  refine (triple_poolWrite v.beg (k * sz) full x _ R (.refl _) (by rw [hv.len]; omega)).post (fun _ z hz => ?_)
  refine ⟨splice full (k * sz) x, ⟨by rw [List.length_set]; exact hv.fin, hv.max, by rw [List.length_set]; exact hle, ?_, ?_, ?_, hv.null⟩, ?_⟩
  · rw [splice_length (by rw [hv.len]; omega)]; exact hv.len
  · rw [List.length_set, List.set_eq_take_append_cons_drop, if_pos hk, List.flatten_append, List.flatten_cons,
      ← hv.elems.flatten_take, ← hv.elems.flatten_drop, ← hv.data, List.take_take, Nat.min_eq_left (by omega)]
    unfold splice
    have e1 : (full.take (k * sz)).length = k * sz := by rw [List.length_take, hv.len]; omega
    rw [List.take_append, e1, List.take_of_length_le (l := full.take (k * sz)) (by rw [e1]; omega), List.take_append, List.take_of_length_le (l := x) (by omega),
      List.drop_take, h3, hx]
    congr 3; omega
  · intro y hy
    rcases List.mem_or_eq_of_mem_set hy with h | h
    · exact hv.elems y h
    · rw [h]; exact hx
  · rw [Vec.own_pos h0]; exact hz

/-- reading `n` elements from position `a` on -/
theorem Vec.readAt_spec (hv : v.Rep sz cap xs full) (a n p m : Nat) (hn : a + n ≤ xs.length) (hp : p = v.beg + a * sz) (hm : m = n * sz) :
    Triple (Pool hA b s (v.own full ++ R)) (M.readBytes p m)
      (fun r z => r = ((xs.drop a).take n).flatten ∧ Pool hA b s (v.own full ++ R) z) := by
  subst hp hm
  have hmul := hv.mul_le
  by_cases h0 : v.beg = 0
  · have : n = 0 := by have := hv.null h0; have := hv.le; omega
    subst this
    rw [Nat.zero_mul]
    exact Triple.pure _ (fun z hz => ⟨by simp, hz⟩)
  · rw [Vec.own_pos h0, ← hv.slice a n hn]
    have h1 : (a + n) * sz ≤ xs.length * sz := Nat.mul_le_mul_right _ hn
    rw [Nat.add_mul] at h1
    exact triple_poolRead v.beg (a * sz) (n * sz) full _ R (.refl _) (by rw [hv.len]; omega)
end
end KTL
