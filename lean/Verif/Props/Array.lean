import Verif.Containers.Array
import Verif.Props.VectorAlias

/- C49 (and C43, C46–C48) for `trivial_array`. -/
namespace KTL

/-! ### Specification: sequences, as for vectors -/

/-- The meaning of the operations of arrays on sequences: those that vectors have too mean the same. -/
def Seqs.AStep (sz : Nat) (c : Seqs) (o : ArrOp) (c' : Seqs) : Prop :=
  match o with
  | .new => c.Step sz .new c'
  | .newSize n => c.Step sz (.newSize n) c'
  | .newFill n x => c.Step sz (.newFill n x) c'
  | .newRange ys => c.Step sz (.newRange ys) c'
  | .copy j => c.Step sz (.copy j) c'
  | .move j => c.Step sz (.move j) c'
  | .copyAssign i j => c.Step sz (.copyAssign i j) c'
  | .moveAssign i j => c.Step sz (.moveAssign i j) c'
  | .destroy i => c.Step sz (.destroy i) c'
  | .resize i n =>
    match c.xs[i]? with
    | some ys => ∃ us, us.length = n - ys.length ∧ (∀ u ∈ us, u.length = sz) ∧ c' = { c with xs := c.xs.set i (ys.take n ++ us) }
    | none => c' = c
  | .assign i zs =>
    match c.xs[i]? with
    | some _ => c' = if ∀ z ∈ zs, z.length = sz then { c with xs := c.xs.set i zs } else c
    | none => c' = c
  | .assignFrom i j a n =>
    match c.xs[i]?, c.xs[j]? with
    | some _, some zs => c' = if i ≠ j ∧ a + n ≤ zs.length then { c with xs := c.xs.set i ((zs.drop a).take n) } else c
    | _, _ => c' = c
  | .write i k x => c.Step sz (.write i k x) c'
  | .read i k => c.Step sz (.read i k) c'

/-- `ops` can take the sequences from `c` to `c'`. -/
inductive Seqs.ARun (sz : Nat) : Seqs → List ArrOp → Seqs → Prop
  | nil (c) : ARun sz c [] c
  | cons {c o c' os c''} : c.AStep sz o c' → ARun sz c' os c'' → ARun sz c (o :: os) c''

/-- How many elements an operation asks for. -/
def ArrOp.weight : ArrOp → Nat
  | .newSize n | .newFill n _ | .assignFrom _ _ _ n | .resize _ n => n
  | .newRange xs | .assign _ xs => xs.length
  | _ => 0

/-- The sum over a program. -/
def aweights : List ArrOp → Nat
  | [] => 0
  | o :: os => o.weight + aweights os

/-- The operation may allocate zero bytes (see C58 for compositions that cannot serve that). -/
def ArrOp.mayBeEmpty : ArrOp → Bool
  | .newSize 0 | .newFill 0 _ | .newRange [] | .copy _ | .copyAssign _ _ | .resize _ 0 | .assign _ [] | .assignFrom _ _ _ 0 => true
  | _ => false

/-! ### Proof: arrays as vectors without spare capacity -/

/-- an array as a vector -/
def Arr.vec (a : Arr) : Vec := ⟨a.beg, a.fin, a.fin⟩

def Arrs.vecs {A : Allocator} (c : Arrs A) : Vecs A := { st := c.st, vs := c.vs.map Arr.vec, seen := c.seen }

theorem Triple.ofMap {α β} {P : HProp} {c : M α} {f : α → β} {Q : β → HProp} (h : Triple P (c >>= fun a => Pure.pure (f a)) Q) :
    Triple P c (fun a => Q (f a)) := by
  intro w x hf hd he hp
  have := h w x hf hd he hp
  rw [M.bind_apply] at this
  cases hc : c w with
  | ok a w' => rw [hc] at this; exact this
  | oom w' => rw [hc] at this; exact this
  | ub => rw [hc] at this; exact this

/-- the operation of vectors that an operation of arrays is -/
def ArrOp.vop : ArrOp → Option VOp
  | .new => some .new
  | .newSize n => some (.newSize n)
  | .newFill n x => some (.newFill n x)
  | .newRange ys => some (.newRange ys)
  | .copy j => some (.copy j)
  | .move j => some (.move j)
  | .copyAssign i j => some (.copyAssign i j)
  | .moveAssign i j => some (.moveAssign i j)
  | .destroy i => some (.destroy i)
  | .write i k x => some (.write i k x)
  | .read i k => some (.read i k)
  | _ => none

section
variable {A : Allocator} {sz : Nat}

theorem Arr.ofSize_vec (s : A.St) (n : Nat) : (Arr.ofSize sz A s n >>= fun r => pure (r.1, r.2.vec)) = Vec.ofSize sz A s n := by
  unfold Arr.ofSize Vec.ofSize
  rw [bind_assoc]; rfl

theorem Arr.ofFill_vec (s : A.St) (n : Nat) (x : Arg) : (Arr.ofFill sz A s n x >>= fun r => pure (r.1, r.2.vec)) = Vec.ofFill sz A s n x := by
  unfold Arr.ofFill Vec.ofFill
  rw [← Arr.ofSize_vec]
  simp only [bind_assoc, pure_bind]
  congr 1
  funext r
  split
  · rw [bind_assoc]; rfl
  · rw [bind_assoc]
    congr 1
    funext bs
    rw [bind_assoc]; rfl

theorem Arr.ofRange_vec (s : A.St) (n : Nat) (x : Arg) : (Arr.ofRange sz A s n x >>= fun r => pure (r.1, r.2.vec)) = Vec.ofRange sz A s n x := by
  unfold Arr.ofRange Vec.ofRange
  rw [← Arr.ofSize_vec]
  simp only [bind_assoc, pure_bind]
  rfl

theorem Arr.copy_vec (s : A.St) (o : Arr) : (Arr.copy sz A s o >>= fun r => pure (r.1, r.2.vec)) = Vec.copy sz A s o.vec := by
  unfold Arr.copy Vec.copy
  rw [← Arr.ofSize_vec]
  simp only [bind_assoc, pure_bind]
  congr 1
  funext r
  show (if o.beg ≠ 0 then _ else _) >>= _ = if o.beg ≠ 0 then _ else _
  split
  · rw [bind_assoc]; rfl
  · rfl

theorem Arr.destroy_vec (s : A.St) (a : Arr) : a.destroy sz A s = a.vec.destroy sz A s := rfl

theorem Arrs.copyAssign_vec (c : Arrs A) (i j : Nat) :
    (c.copyAssign sz i j >>= fun c' => pure c'.vecs) = c.vecs.copyAssign sz i j := by
  unfold Arrs.copyAssign Vecs.copyAssign
  show _ = (match (c.vs.map Arr.vec)[i]?, (c.vs.map Arr.vec)[j]? with
    | some v, some o => _
    | _, _ => _)
  rw [List.getElem?_map, List.getElem?_map]
  cases hi : c.vs[i]? with
  | none => rfl
  | some v =>
    cases hj : c.vs[j]? with
    | none => rfl
    | some o =>
      simp only [Option.map_some]
      rw [bind_assoc]
      show (v.vec.destroy sz A c.st >>= _) = (v.vec.destroy sz A c.st >>= _)
      congr 1
      funext s
      have e : o.vec.size sz = o.size sz := rfl
      rw [e, ← Arr.ofSize_vec]
      simp only [bind_assoc, pure_bind]
      congr 1
      funext r
      have e3 : c.vecs.vs.set i r.2.vec = (c.vs.set i r.2).map Arr.vec := by rw [List.map_set]; rfl
      rw [e3, List.getElem?_map]
      cases (c.vs.set i r.2)[j]? <;> rfl

theorem Arrs.step_vec (c : Arrs A) (o : ArrOp) (o' : VOp) (h : o.vop = some o') :
    (c.step sz o >>= fun c' => pure c'.vecs) = c.vecs.step sz o' := by
  have hget : ∀ i, c.vecs.vs[i]? = (c.vs[i]?).map Arr.vec := fun i => List.getElem?_map ..
  cases o with
  | new =>
    obtain rfl := Option.some.inj h
    simp only [Arrs.step, Vecs.step, Arrs.vecs, pure_bind, List.map_append]; rfl
  | newSize n =>
    obtain rfl := Option.some.inj h
    simp only [Arrs.step, Vecs.step]
    rw [← Arr.ofSize_vec]
    simp only [Arrs.vecs, bind_assoc, pure_bind, List.map_append]; rfl
  | newFill n x =>
    obtain rfl := Option.some.inj h
    simp only [Arrs.step, Vecs.step]
    split
    · rw [← Arr.ofFill_vec]
      simp only [Arrs.vecs, bind_assoc, pure_bind, List.map_append]; rfl
    · rfl
  | newRange ys =>
    obtain rfl := Option.some.inj h
    simp only [Arrs.step, Vecs.step]
    split
    · rw [← Arr.ofRange_vec]
      simp only [Arrs.vecs, bind_assoc, pure_bind, List.map_append]; rfl
    · rfl
  | copy j =>
    obtain rfl := Option.some.inj h
    simp only [Arrs.step, Vecs.step, hget]
    cases c.vs[j]? with
    | none => rfl
    | some o =>
      simp only [Option.map_some]
      rw [← Arr.copy_vec]
      simp only [Arrs.vecs, bind_assoc, pure_bind, List.map_append]; rfl
  | move j =>
    obtain rfl := Option.some.inj h
    simp only [Arrs.step, Vecs.step, hget]
    cases c.vs[j]? with
    | none => rfl
    | some o => simp only [Option.map_some, Arrs.vecs, pure_bind, List.map_append, List.map_set]; rfl
  | copyAssign i j =>
    obtain rfl := Option.some.inj h
    simp only [Arrs.step, Vecs.step]
    split
    · rfl
    · exact Arrs.copyAssign_vec c i j
  | moveAssign i j =>
    obtain rfl := Option.some.inj h
    simp only [Arrs.step, Vecs.step, Arrs.moveAssign, Vecs.moveAssign, hget]
    cases c.vs[i]? with
    | none => rfl
    | some v =>
      cases c.vs[j]? with
      | none => rfl
      | some o =>
        simp only [Option.map_some, Arrs.vecs, bind_assoc, pure_bind, List.map_set, Arr.destroy_vec]; rfl
  | destroy i =>
    obtain rfl := Option.some.inj h
    simp only [Arrs.step, Vecs.step, hget]
    cases c.vs[i]? with
    | none => rfl
    | some v => simp only [Option.map_some, Arrs.vecs, bind_assoc, pure_bind, Linear.map_eraseIdx', Arr.destroy_vec]
  | resize i n => cases h
  | assign i xs => cases h
  | assignFrom i j a n => cases h
  | write i k x =>
    obtain rfl := Option.some.inj h
    simp only [Arrs.step, Vecs.step, hget]
    cases c.vs[i]? with
    | none => rfl
    | some v =>
      simp only [Option.map_some]
      show (if k < v.size sz ∧ x.length = sz then _ else _) >>= _ = if k < v.size sz ∧ x.length = sz then _ else _
      split
      · rw [bind_assoc]; rfl
      · rfl
  | read i k =>
    obtain rfl := Option.some.inj h
    simp only [Arrs.step, Vecs.step, hget]
    cases c.vs[i]? with
    | none => rfl
    | some v =>
      simp only [Option.map_some]
      show (if k < v.size sz then _ else _) >>= _ = if k < v.size sz then _ else _
      split
      · rw [bind_assoc]; rfl
      · rfl
end

section
variable {A : Allocator} {fA : Nat → Prop} {hA : Sound A fA} {b sz : Nat} {s : A.St} {R : List (Nat × List UInt8)} {a : Arr} {cap : Nat}
  {xs : List (List UInt8)} {full : List UInt8}

/-- an array has no spare capacity -/
theorem Arr.rep_cap (hz : 0 < sz) (h : a.vec.Rep sz cap xs full) : cap = xs.length := by
  have h1 := h.fin
  have h2 := h.max
  have e : a.vec.fin = a.vec.max := rfl
  rw [h1, h2] at e
  exact (Nat.eq_of_mul_eq_mul_right hz (by omega)).symm

theorem Arr.size_eq (hz : 0 < sz) (h : a.vec.Rep sz cap xs full) : a.size sz = xs.length := h.size_eq hz

theorem memcpy_zero (p q : Nat) : M.memcpy p q 0 = pure () := by
  unfold M.memcpy
  rw [if_neg (by omega)]; rfl

theorem Arr.resize_spec (hz : 0 < sz) (hv : a.vec.Rep sz cap xs full) (hc : sz * cap < W64) (n : Nat) (hf : fA (sz * n)) (hn : sz * n < W64) :
    Triple (Pool hA b s (a.vec.own full ++ R)) (a.resize sz A s n) (fun r x => ∃ us full', us.length = n - xs.length ∧ Elems sz us ∧
      r.2.vec.Rep sz n (xs.take n ++ us) full' ∧ Pool hA b r.1 (r.2.vec.own full' ++ R) x) := by
  obtain rfl := Arr.rep_cap hz hv
  unfold Arr.resize
  rw [Arr.size_eq hz hv]
  by_cases hne : xs.length = n
  · rw [if_neg (by simp [hne])]
    subst hne
    exact Triple.pure _ (fun x hx => ⟨[], full, by simp, Elems.nil, by rw [List.append_nil, List.take_length]; exact hv, hx⟩)
  · rw [if_pos hne]
    refine Triple.bind (triple_grab sz n _ hf hn) (fun r => ?_)
    refine Triple.or (Triple.and fun hr0 => Triple.and fun h0 => ?_) (Triple.and fun hg => Triple.exists fun bs => Triple.and fun hl => ?_)
    · -- nothing was allocated
      subst h0
      have hrep : (⟨r.1, r.1 + 0 * sz⟩ : Arr).vec.Rep sz 0 (xs.take 0 ++ []) [] := by
        refine ⟨by simp [Arr.vec], by simp [Arr.vec], by simp, by simp, by simp, Elems.nil, fun _ => rfl⟩
      have hown : (⟨r.1, r.1 + 0 * sz⟩ : Arr).vec.own [] = [] := Vec.own_neg hr0
      by_cases ha : a.beg = 0
      · rw [if_neg (by simp [ha])]
        refine Triple.pure _ (fun x hx => ⟨[], [], by simp, Elems.nil, hrep, ?_⟩)
        rw [hown]
        rw [Vec.own_neg (show a.vec.beg = 0 from ha)] at hx; exact hx
      · have e : M.memcpy r.1 a.beg (Min.min xs.length 0 * sz) = pure () := by
          rw [Nat.min_zero, Nat.zero_mul]; exact memcpy_zero _ _
        rw [if_pos ha, e]
        show Triple _ (typedDealloc sz A r.2 a.beg xs.length >>= _) _
        rw [Vec.own_pos (show a.vec.beg ≠ 0 from ha)]
        refine Triple.bind (triple_ungrab sz xs.length a.beg full _ R (.refl _) (by rw [hv.len, Nat.mul_comm]) hc) (fun s' => ?_)
        refine Triple.pure _ (fun x hx => ⟨[], [], by simp, Elems.nil, hrep, ?_⟩)
        rw [hown]; exact hx
    · -- the new block, holding the copied prefix and then what was there
      have hmin : Min.min xs.length n * sz ≤ sz * n := by
        rw [Nat.mul_comm sz]; exact Nat.mul_le_mul_right _ (Nat.min_le_right _ _)
      have htl : (xs.take n).length = Min.min xs.length n := by rw [List.length_take]; exact Nat.min_comm _ _
      have hel := hv.elems.take n
      have hfl : (xs.take n).flatten.length = Min.min xs.length n * sz := by rw [hel.length, htl]
      obtain ⟨us, hu1, hu2, hu3⟩ := elems_of_bytes sz (n - xs.length) (bs.drop (Min.min xs.length n * sz)) (by
        rw [List.length_drop, hl, Nat.sub_mul, Nat.mul_comm sz]
        rcases Nat.le_total xs.length n with h | h
        · rw [Nat.min_eq_left h]
        · have := Nat.mul_le_mul_right sz h
          rw [Nat.min_eq_right h]; omega)
      have hsp : splice bs 0 (xs.take n).flatten = (xs.take n ++ us).flatten := by
        unfold splice
        rw [List.take_zero, List.nil_append, Nat.zero_add, hfl, List.flatten_append, hu3]
      have hlen : (xs.take n ++ us).length = n := by rw [List.length_append, htl, hu1]; omega
      have hE : Elems sz (xs.take n ++ us) := hel.append hu2
      have hrep : (⟨r.1, r.1 + n * sz⟩ : Arr).vec.Rep sz n (xs.take n ++ us) (splice bs 0 (xs.take n).flatten) := by
        refine ⟨by rw [hlen]; rfl, rfl, by rw [hlen]; exact Nat.le_refl _, by rw [hsp, hE.length, hlen], ?_, hE, fun h => absurd h hg.1⟩
        rw [hsp, List.take_of_length_le (by rw [hE.length]; exact Nat.le_refl _)]
      have hown : (⟨r.1, r.1 + n * sz⟩ : Arr).vec.own (splice bs 0 (xs.take n).flatten) = [(r.1, splice bs 0 (xs.take n).flatten)] := Vec.own_pos hg.1
      by_cases ha : a.beg = 0
      · have hx0 : xs = [] := List.length_eq_zero_iff.1 (hv.null ha)
        rw [if_neg (by simp [ha])]
        refine Triple.pure _ (fun x hx => ⟨us, _, hu1, hu2, hrep, ?_⟩)
        rw [hown]
        rw [Vec.own_neg (show a.vec.beg = 0 from ha)] at hx
        have e : splice bs 0 (xs.take n).flatten = bs := by rw [hx0]; simp [splice]
        rw [e]; exact hx
      · rw [if_pos ha, Vec.own_pos (show a.vec.beg ≠ 0 from ha)]
        have hfull : full = xs.flatten := by
          have := hv.data
          rw [List.take_of_length_le (by rw [hv.len]; exact Nat.le_refl _)] at this; exact this
        have hd : (full.drop 0).take (Min.min xs.length n * sz) = (xs.take n).flatten := by
          rw [List.drop_zero, hfull, hv.elems.flatten_take]
          congr 1
          rcases Nat.le_total xs.length n with h | h
          · rw [Nat.min_eq_left h, List.take_length, List.take_of_length_le h]
          · rw [Nat.min_eq_right h]
        have hmin2 : Min.min xs.length n * sz ≤ xs.length * sz := Nat.mul_le_mul_right _ (Nat.min_le_left _ _)
        refine Triple.bind (triple_poolCopy r.1 0 a.beg 0 (Min.min xs.length n * sz) bs full _ R (.refl _) (by omega)
          (by rw [hv.len]; omega)) (fun _ => ?_)
        rw [hd]
        refine Triple.bind (triple_ungrab sz xs.length a.beg full _ ((r.1, splice bs 0 (xs.take n).flatten) :: R) (.swap _ _ _)
          (by rw [hv.len, Nat.mul_comm]) hc) (fun s' => ?_)
        refine Triple.pure _ (fun x hx => ⟨us, _, hu1, hu2, hrep, ?_⟩)
        rw [hown]; exact hx

/-- the source of `assign` is not in the array itself -/
theorem Arr.assign_spec (hz : 0 < sz) (hv : a.vec.Rep sz cap xs full) (hc : sz * cap < W64) (ys : List (List UInt8)) (src : Arg)
    (hs : ArgOk src ys.flatten R) (hy : Elems sz ys) (hf : fA (sz * ys.length)) (hn : sz * ys.length < W64) :
    Triple (Pool hA b s (a.vec.own full ++ R)) (a.assign sz A s ys.length src) (fun r x => ∃ full',
      r.2.vec.Rep sz ys.length ys full' ∧ Pool hA b r.1 (r.2.vec.own full' ++ R) x) := by
  obtain rfl := Arr.rep_cap hz hv
  unfold Arr.assign
  have room : Triple (Pool hA b s (a.vec.own full ++ R)) (a.assignRoom sz A s ys.length) (fun r x => ∃ full' us,
      us.length = ys.length ∧ r.2.vec.Rep sz ys.length us full' ∧ Pool hA b r.1 (r.2.vec.own full' ++ R) x) := by
    unfold Arr.assignRoom
    rw [Arr.size_eq hz hv]
    by_cases hne : ys.length = xs.length
    · rw [if_neg (by simp [hne])]
      rw [hne]
      exact Triple.pure _ (fun x hx => ⟨full, xs, rfl, hv, hx⟩)
    · rw [if_pos hne]
      have hnew := Triple.ofMap (c := Arr.ofSize sz A s ys.length) (f := fun r => (r.1, r.2.vec))
        (by rw [Arr.ofSize_vec]; exact Vec.ofSize_spec (hA := hA) (b := b) (R := a.vec.own full ++ R) ys.length hf hn)
      have e : (do let r ← grab sz A s ys.length; let s' ← a.destroy sz A r.2; pure (s', (⟨r.1, r.1 + ys.length * sz⟩ : Arr))) =
          (do let r ← Arr.ofSize sz A s ys.length; let s' ← a.destroy sz A r.1; pure (s', r.2)) := by
        unfold Arr.ofSize
        simp only [bind_assoc, pure_bind]
      rw [e]
      refine Triple.bind hnew (fun r => ?_)
      refine Triple.exists fun full' => Triple.exists fun us => Triple.and fun hu => Triple.and fun hr => ?_
      rw [Pool.perm (show (r.2.vec.own full' ++ (a.vec.own full ++ R)).Perm (a.vec.own full ++ (r.2.vec.own full' ++ R)) by
        rw [← List.append_assoc, ← List.append_assoc]; exact List.perm_append_comm.append_right _)]
      refine Triple.bind (Vec.destroy_spec (hA := hA) (s := r.1) hz hv hc) (fun s' => ?_)
      exact Triple.pure _ (fun x hx => ⟨full', us, hu, hr, hx⟩)
  refine Triple.bind room (fun r => ?_)
  refine Triple.exists fun full' => Triple.exists fun us => Triple.and fun hu => Triple.and fun hr => ?_
  rw [← hy.length]
  by_cases h0 : r.2.beg = 0
  · have hy0 : ys = [] := List.length_eq_zero_iff.1 (hr.null h0)
    subst hy0
    have hus : us = [] := List.length_eq_zero_iff.1 hu
    subst hus
    rw [Vec.own_neg (show r.2.vec.beg = 0 from h0)]
    refine Triple.bind (triple_argCopy_zero hs _) (fun _ => Triple.pure _ (fun x hx => ⟨full', hr, ?_⟩))
    rw [Vec.own_neg (show r.2.vec.beg = 0 from h0)]; exact hx
  · rw [Vec.own_pos (show r.2.vec.beg ≠ 0 from h0)]
    have hlen := hr.len
    refine Triple.bind (triple_argCopy (p := r.2.beg) hs 0 (by rw [hy.length, hlen]; omega)) (fun _ => Triple.pure _ (fun x hx => ⟨splice full' 0 ys.flatten, ?_, ?_⟩))
    · have hp := splice_prefix hr 0 0 ys.flatten ys (by omega) rfl hy (by simp) (by omega)
      exact ⟨by rw [hr.fin, hu], hr.max, Nat.le_refl _, hp.1, by have := hp.2; simpa using this, hy, hr.null⟩
    · rw [Vec.own_pos (show r.2.vec.beg ≠ 0 from h0)]; exact hx
end

def AInv {A : Allocator} {fA : Nat → Prop} (hA : Sound A fA) (b sz T : Nat) (c : Arrs A) (S : Seqs) : HProp := VInv hA b sz T c.vecs S

theorem ArrOp.vop_some {o : ArrOp} {o' : VOp} (h : o.vop = some o') :
    o'.weight = o.weight ∧ (o'.mayBeEmpty = true → o.mayBeEmpty = true) ∧ ∀ (sz : Nat) (c c' : Seqs), c.Step sz o' c' → c.AStep sz o c' := by
  cases o <;> simp only [ArrOp.vop, reduceCtorEq] at h <;> obtain rfl := Option.some.inj h
  all_goals refine ⟨rfl, ?_, fun sz c c' hc => hc⟩
  all_goals simp only [VOp.mayBeEmpty, ArrOp.mayBeEmpty]
  all_goals first
    | exact fun h => h
    | skip
  all_goals intro h; split at h <;> simp_all

theorem astep {A : Allocator} {fA : Nat → Prop} (hA : Sound A fA) (b sz T N : Nat) (c : Arrs A) (S : Seqs) (o : ArrOp) (hz : 0 < sz)
    (hfit : ∀ n, 0 < n → n ≤ 2 * N → sz * n < W64 ∧ fA (sz * n)) (h0 : o.mayBeEmpty = true → fA 0) (hN : T + o.weight ≤ N) :
    Triple (AInv hA b sz T c S) (c.step sz o) (fun c' x => ∃ S', S.AStep sz o S' ∧ AInv hA b sz (T + o.weight) c' S' x) := by
  cases hv : o.vop with
  | some o' =>
    obtain ⟨e1, e2, e3⟩ := ArrOp.vop_some hv
    refine Triple.ofMap (f := Arrs.vecs) (Q := fun c' x => ∃ S', S.AStep sz o S' ∧ VInv hA b sz (T + o.weight) c' S' x) ?_
    rw [Arrs.step_vec c o o' hv]
    refine (vstep hA b sz T N c.vecs S o' hz hfit (fun h => h0 (e2 h)) (by rw [e1]; exact hN)).post (fun c' x hx => ?_)
    obtain ⟨S', h1, h2⟩ := hx
    rw [e1] at h2
    exact ⟨S', e3 _ _ _ h1, h2⟩
  | none =>
    refine Triple.exists fun Γ => Triple.and fun hvs => Triple.and fun hx => Triple.and fun hs => Triple.and fun hok => ?_
    have hW : ∀ n, n ≤ 2 * N → sz * n < W64 := fun n hn => by
      by_cases h : n = 0
      · subst h; rw [Nat.mul_zero]; decide
      · exact (hfit n (by omega) hn).1
    have hF : ∀ n, (n = 0 → fA 0) → n ≤ 2 * N → fA (sz * n) := fun n hn0 hn => by
      by_cases h : n = 0
      · subst h; exact hn0 rfl
      · exact (hfit n (by omega) hn).2
    have hC : ∀ g ∈ Γ, sz * g.cap < W64 := fun g hg => hW _ (by have := (hok g hg).cap_le; omega)
    have skip : S.AStep sz o S →
        Triple (Pool hA b c.st (Γ.flatMap Ghost.own)) (pure c : M (Arrs A))
          (fun c' x => ∃ S', S.AStep sz o S' ∧ AInv hA b sz (T + o.weight) c' S' x) := fun hS' =>
      Triple.pure _ (fun x hp => ⟨S, hS', VInv.keep hok (by omega) hvs hx hs hp⟩)
    have get : ∀ i, (Γ[i]? = none ∧ c.vs[i]? = none ∧ S.xs[i]? = none) ∨
        ∃ (g : Ghost) (a : Arr), Γ[i]? = some g ∧ g ∈ Γ ∧ c.vs[i]? = some a ∧ a.vec = g.v ∧ S.xs[i]? = some g.xs := fun i => by
      rcases VInv.get hvs hx i with ⟨h1, h2, h3⟩ | ⟨g, h1, h1', h2, h3⟩
      · left
        replace h2 : (c.vs.map Arr.vec)[i]? = none := h2
        rw [List.getElem?_map] at h2
        cases hc : c.vs[i]? with
        | none => exact ⟨h1, rfl, h3⟩
        | some a => rw [hc] at h2; cases h2
      · right
        replace h2 : (c.vs.map Arr.vec)[i]? = some g.v := h2
        rw [List.getElem?_map] at h2
        cases hc : c.vs[i]? with
        | none => rw [hc] at h2; cases h2
        | some a => rw [hc] at h2; exact ⟨g, a, h1, h1', hc, Option.some.inj h2, h3⟩
    have done : ∀ {i : Nat} {g : Ghost} {r : A.St × Arr} {n : Nat} {ys : List (List UInt8)} {full : List UInt8} {x : Heap} {S' : Seqs}, Γ[i]? = some g →
        r.2.vec.Rep sz n ys full → n ≤ T + o.weight → Pool hA b r.1 (r.2.vec.own full ++ (Γ.eraseIdx i).flatMap Ghost.own) x →
        S' = { S with xs := S.xs.set i ys } → AInv hA b sz (T + o.weight) { c with st := r.1, vs := c.vs.set i r.2 } S' x := by
      intro i g r n ys full x S' hi hr hn hp hS
      subst hS
      refine VInv.set (g' := ⟨r.2.vec, n, ys, full⟩) hok (Nat.le_add_right _ _) hi ⟨hr, by show n ≤ _; omega, by show ys.length ≤ _; have := hr.le; omega⟩ hp hvs hx rfl ?_ rfl hs
      show (c.vs.set i r.2).map Arr.vec = (c.vs.map Arr.vec).set i r.2.vec
      rw [List.map_set]
    cases o with
    | resize i n =>
      simp only [ArrOp.weight] at hN
      rcases get i with ⟨h1, h2, h3⟩ | ⟨g, a, h1, h1', h2, h2', h3⟩
      · simp only [Arrs.step, h2]
        exact skip (by simp only [Seqs.AStep, h3])
      · simp only [Arrs.step, h2]
        have hg := (hok g h1').rep
        have hgo : g.own = a.vec.own g.full := by rw [h2']; rfl
        rw [← h2'] at hg
        rw [Pool.perm (own_perm h1), hgo]
        refine Triple.bind (Arr.resize_spec hz hg (hC g h1') n (hF n (fun h => h0 (by subst h; rfl)) (by omega)) (hW n (by omega))) (fun r => ?_)
        refine Triple.exists fun us => Triple.exists fun full => Triple.and fun hu => Triple.and fun hu2 => Triple.and fun hr => Triple.pure _ (fun x hp => ?_)
        exact ⟨{ S with xs := S.xs.set i (g.xs.take n ++ us) }, by simp only [Seqs.AStep, h3]; exact ⟨us, hu, hu2, rfl⟩,
          done h1 hr (by simp only [ArrOp.weight]; omega) hp rfl⟩
    | assign i ys =>
      simp only [ArrOp.weight] at hN
      rcases get i with ⟨h1, h2, h3⟩ | ⟨g, a, h1, h1', h2, h2', h3⟩
      · simp only [Arrs.step, h2]
        exact skip (by simp only [Seqs.AStep, h3])
      · simp only [Arrs.step, h2]
        have hg := (hok g h1').rep
        have hgo : g.own = a.vec.own g.full := by rw [h2']; rfl
        rw [← h2'] at hg
        by_cases hy : ∀ y ∈ ys, y.length = sz
        · rw [if_pos hy, Pool.perm (own_perm h1), hgo]
          refine Triple.bind (Arr.assign_spec hz hg (hC g h1') ys (.val ys.flatten) (.inl rfl) hy
            (hF _ (fun h => h0 (by rw [List.length_eq_zero_iff.1 h]; rfl)) (by omega)) (hW _ (by omega))) (fun r => ?_)
          refine Triple.exists fun full => Triple.and fun hr => Triple.pure _ (fun x hp => ?_)
          exact ⟨{ S with xs := S.xs.set i ys }, by simp only [Seqs.AStep, h3]; rw [if_pos hy], done h1 hr (by simp only [ArrOp.weight]; omega) hp rfl⟩
        · rw [if_neg hy]
          exact skip (by simp only [Seqs.AStep, h3]; rw [if_neg hy])
    | assignFrom i j k n =>
      simp only [ArrOp.weight] at hN
      rcases get i with ⟨h1, h2, h3⟩ | ⟨g, a, h1, h1', h2, h2', h3⟩
      · simp only [Arrs.step, h2]
        exact skip (by simp only [Seqs.AStep, h3])
      · rcases get j with ⟨k1, k2, k3⟩ | ⟨o, a', k1, k1', k2, k2', k3⟩
        · simp only [Arrs.step, h2, k2]
          exact skip (by simp only [Seqs.AStep, h3, k3])
        · simp only [Arrs.step, h2, k2]
          have hg := (hok g h1').rep
          have hgo : g.own = a.vec.own g.full := by rw [h2']; rfl
          rw [← h2'] at hg
          have ho := (hok o k1').rep
          have hoo : o.own = a'.vec.own o.full := by rw [k2']; rfl
          rw [← k2'] at ho
          rw [Arr.size_eq hz ho]
          by_cases hc : i ≠ j ∧ k + n ≤ o.xs.length
          · rw [if_pos hc, Pool.perm (own_perm h1), hgo]
            have hlen : ((o.xs.drop k).take n).length = n := by rw [List.length_take, List.length_drop]; omega
            have hE : Elems sz ((o.xs.drop k).take n) := (ho.elems.drop k).take n
            have harg : n = 0 ∨ ArgOk (.ref (a'.beg + k * sz)) ((o.xs.drop k).take n).flatten ((Γ.eraseIdx i).flatMap Ghost.own) := by
              by_cases hn : n = 0
              · exact .inl hn
              · have hb : a'.vec.beg ≠ 0 := ho.pos_of_index (k := k) (by omega)
                refine .inr (.inr ⟨a'.beg, o.full, k * sz, rfl, own_mem_eraseIdx hc.1 k1 _ (by rw [hoo, Vec.own_pos hb]; exact List.mem_singleton.2 rfl), ?_, ?_⟩)
                · rw [hE.length, hlen, ← Nat.add_mul, ho.len]
                  exact Nat.mul_le_mul_right _ (Nat.le_trans hc.2 ho.le)
                · rw [hE.length, hlen, ho.slice k n hc.2]
            have key : Triple (Pool hA b c.st (a.vec.own g.full ++ (Γ.eraseIdx i).flatMap Ghost.own)) (a.assign sz A c.st n (.ref (a'.beg + k * sz)))
                (fun r x => ∃ full', r.2.vec.Rep sz n ((o.xs.drop k).take n) full' ∧ Pool hA b r.1 (r.2.vec.own full' ++ (Γ.eraseIdx i).flatMap Ghost.own) x) := by
              rcases harg with hn | harg
              · subst hn
                have := Arr.assign_spec (hA := hA) (b := b) (s := c.st) (R := (Γ.eraseIdx i).flatMap Ghost.own) hz hg (hC g h1') [] (.val []) (.inl rfl) Elems.nil
                  (hF _ (fun h => h0 rfl) (by simp)) (hW _ (by simp))
                have e : a.assign sz A c.st 0 (.ref (a'.beg + k * sz)) = a.assign sz A c.st 0 (.val []) := by
                  unfold Arr.assign
                  congr 1
                  funext r
                  show (M.memcpy r.2.beg _ (0 * sz) >>= _) = _
                  rw [Nat.zero_mul, memcpy_zero]; rfl
                rw [e]
                rw [List.take_zero]
                exact this
              · have := Arr.assign_spec (hA := hA) (b := b) (s := c.st) (R := (Γ.eraseIdx i).flatMap Ghost.own) hz hg (hC g h1') ((o.xs.drop k).take n) _ harg hE
                  (hF _ (fun h => h0 (by rw [hlen] at h; subst h; rfl)) (by omega)) (hW _ (by omega))
                rw [hlen] at this
                exact this
            refine Triple.bind key (fun r => ?_)
            refine Triple.exists fun full => Triple.and fun hr => Triple.pure _ (fun x hp => ?_)
            exact ⟨{ S with xs := S.xs.set i ((o.xs.drop k).take n) }, by simp only [Seqs.AStep, h3, k3]; rw [if_pos hc],
              done h1 hr (by simp only [ArrOp.weight]; omega) hp rfl⟩
          · rw [if_neg hc]
            exact skip (by simp only [Seqs.AStep, h3, k3]; rw [if_neg hc])
    | _ => cases hv

theorem arun {A : Allocator} {fA : Nat → Prop} (hA : Sound A fA) (b sz N : Nat) (hz : 0 < sz)
    (hfit : ∀ n, 0 < n → n ≤ 2 * N → sz * n < W64 ∧ fA (sz * n)) (ops : List ArrOp) (h0 : (∃ o ∈ ops, o.mayBeEmpty = true) → fA 0)
    (T : Nat) (c : Arrs A) (S : Seqs) (hN : T + aweights ops ≤ N) :
    Triple (AInv hA b sz T c S) (c.run sz ops) (fun c' x => ∃ S', S.ARun sz ops S' ∧ AInv hA b sz (T + aweights ops) c' S' x) := by
  induction ops generalizing T c S with
  | nil => exact Triple.pure _ (fun x hx => ⟨S, .nil S, hx⟩)
  | cons o os ih =>
    simp only [aweights] at hN
    refine Triple.bind (astep hA b sz T N c S o hz hfit (fun h => h0 ⟨o, by simp, h⟩) (by omega)) (fun c' => ?_)
    refine Triple.exists fun S' => Triple.and fun hS' => ?_
    refine (ih (fun ⟨o', h1, h2⟩ => h0 ⟨o', by simp [h1], h2⟩) (T + o.weight) c' S' (by omega)).post (fun c'' x hx => ?_)
    obtain ⟨S'', h1, h2⟩ := hx
    refine ⟨S'', .cons hS' h1, ?_⟩
    simp only [aweights]
    rw [← Nat.add_assoc]; exact h2

theorem aplay_spec {A : Allocator} {fA : Nat → Prop} (hA : Sound A fA) (b sz : Nat) (hz : 0 < sz) (ops : List ArrOp)
    (hfit : ∀ n, 0 < n → n ≤ 2 * aweights ops → sz * n < W64 ∧ fA (sz * n)) (h0 : (∃ o ∈ ops, o.mayBeEmpty = true) → fA 0)
    (h1 : b ≠ 0) (h2 : b % 16 = 0) (h3 : b + A.objSize < W64) :
    Triple (bytes b A.objSize) (aplay sz A b ops) (fun c x => ∃ S, Seqs.ARun sz ⟨[], []⟩ ops S ∧ AInv hA b sz (aweights ops) c S x) := by
  refine Triple.bind (hA.init_spec b h1 h2 h3) (fun s => ?_)
  have := arun hA b sz _ hz hfit ops h0 0 { st := s, vs := [] } ⟨[], []⟩ (by omega)
  rw [Nat.zero_add] at this
  refine this.pre (fun x hx => ?_)
  refine ⟨[], rfl, rfl, rfl, fun g hg => by simp at hg, ?_⟩
  show (hA.Inv b s [] ∗ blocksV []) x
  rw [blocksV_nil, star_emp]; exact hx

theorem Arrs.destroyAll_vec {A : Allocator} {sz : Nat} (s : A.St) (vs : List Arr) : Arrs.destroyAll sz s vs = Vecs.destroyAll sz s (vs.map Arr.vec) := by
  induction vs generalizing s with
  | nil => rfl
  | cons v vs ih =>
    show (v.destroy sz A s >>= fun s' => Arrs.destroyAll sz s' vs) = (v.vec.destroy sz A s >>= fun s' => Vecs.destroyAll sz s' (vs.map Arr.vec))
    rw [Arr.destroy_vec]
    congr 1
    funext s'
    exact ih s'

theorem alife_spec {A : Allocator} {fA : Nat → Prop} (hA : Sound A fA) (b sz : Nat) (hz : 0 < sz) (ops : List ArrOp)
    (hfit : ∀ n, 0 < n → n ≤ 2 * aweights ops → sz * n < W64 ∧ fA (sz * n)) (h0 : (∃ o ∈ ops, o.mayBeEmpty = true) → fA 0)
    (h1 : b ≠ 0) (h2 : b % 16 = 0) (h3 : b + A.objSize < W64) :
    Triple (bytes b A.objSize) (alife sz A b ops) (fun _ => bytes b A.objSize) := by
  refine Triple.bind (aplay_spec hA b sz hz ops hfit h0 h1 h2 h3) (fun c => ?_)
  refine Triple.exists fun S => Triple.and fun _ => Triple.exists fun Γ => Triple.and fun hv => Triple.and fun _ => Triple.and fun _ =>
    Triple.and fun hok => ?_
  rw [Arrs.destroyAll_vec, show c.vs.map Arr.vec = Γ.map Ghost.v from hv]
  have hW : ∀ n, n ≤ 2 * aweights ops → sz * n < W64 := fun n hn => by
    by_cases h : n = 0
    · subst h; rw [Nat.mul_zero]; decide
    · exact (hfit n (by omega) hn).1
  exact Triple.bind (destroyAll_spec hA b sz _ hz hW Γ hok c.st) (fun s => hA.fini_spec b s)

/-! ### The properties -/

/-- As `VSane`, for arrays. -/
def ASane (t : AllocTy) (sz : Nat) (ops : List ArrOp) : Prop :=
  sz * (2 * aweights ops) + t.margin < 2 ^ 64 ∧ ((∃ o ∈ ops, o.mayBeEmpty = true) → t.noRouting = true)

theorem ASane.fits {t : AllocTy} {sz : Nat} {ops : List ArrOp} (h : ASane t sz ops) (hwf : t.WF) (hz : 0 < sz) (plat : Plat) :
    (∀ n, 0 < n → n ≤ 2 * aweights ops → sz * n < W64 ∧ t.fits plat (sz * n)) ∧ ((∃ o ∈ ops, o.mayBeEmpty = true) → t.fits plat 0) := by
  have h1 := h.1
  refine ⟨fun n hn hle => ?_, fun he => ?_⟩
  · have hm : sz * n ≤ sz * (2 * aweights ops) := Nat.mul_le_mul_left _ hle
    have hp : 0 < sz * n := Nat.mul_pos hz hn
    exact ⟨by omega, t.fits_of_margin plat hwf _ hp (by omega)⟩
  · exact t.fits_zero plat hwf (h.2 he) 0 (by omega)

/-- **C49.** A program with any number of arrays — constructed, copied, moved, assigned, resized, written, destroyed in any order, over
any allocator composition and any behaviour of malloc — sees what the same program sees with mathematical sequences, and at the end
`size()` and memory of every array are those of its sequence. No undefined behaviour; `oom` only if an allocation failed. -/
theorem C49_array_is_sequence (sys : Sys) (t : AllocTy) (hwf : t.WF) (b : Nat) (w : World) (hs : Storage w b t.size)
    (sz : Nat) (hz : 0 < sz) (ops : List ArrOp) (hops : ASane t sz ops) :
    match aplay sz (t.denote sys) b ops w with
    | .ok c w' => ∃ S, Seqs.ARun sz ⟨[], []⟩ ops S ∧ c.seen = S.seen ∧ c.vs.length = S.xs.length ∧
        ∀ (i : Nat) (v : Arr) (xs : List (List UInt8)), c.vs[i]? = some v → S.xs[i]? = some xs → v.size sz = xs.length ∧
          ∀ (k : Nat) (e : List UInt8), xs[k]? = some e → e.length = sz ∧ ∀ j, j < sz → w'.heap.b (v.beg + k * sz + j) = e[j]?
    | .oom w' => w'.failed = true
    | .ub => False := by
  obtain ⟨h0, hf, hd, he, hb, hfb, hft⟩ := storage_split hs
  have hfit := hops.fits hwf hz sys.plat
  have := aplay_spec (t.sound sys hwf) b sz hz ops hfit.1 hfit.2 hs.1 hs.2.1 (by rw [t.objSize_eq]; exact hs.2.2.1) w h0 hf hd he
    (by rw [t.objSize_eq]; exact hb)
  cases hp : aplay sz (t.denote sys) b ops w with
  | oom w' => rw [hp] at this; exact this
  | ub => rw [hp] at this; exact this
  | ok c w' =>
    rw [hp] at this
    obtain ⟨⟨h', hd', he', S, hrun, Γ, hv, hx, hseen, hok, hpool⟩, hna⟩ := this
    have hlen : c.vs.length = S.xs.length := by
      have := congrArg List.length hv
      rw [hx, List.length_map] at *
      simpa [Arrs.vecs] using this
    refine ⟨S, hrun, hseen, hlen, fun i v xs hi hi' => ?_⟩
    rcases VInv.get hv hx i with ⟨_, _, h2⟩ | ⟨g, h1, h1', h2, h3⟩
    · rw [h2] at hi'; cases hi'
    · rw [h3] at hi'
      obtain rfl := Option.some.inj hi'
      replace h2 : (c.vs.map Arr.vec)[i]? = some g.v := h2
      rw [List.getElem?_map, hi] at h2
      have hve : v.vec = g.v := Option.some.inj h2
      have hg := (hok g h1').rep
      rw [← hve] at hg
      refine ⟨hg.size_eq hz, fun k e hk => ?_⟩
      obtain ⟨hk1, rfl⟩ := List.getElem?_eq_some_iff.1 hk
      have hel := hg.elems _ (List.getElem_mem hk1)
      refine ⟨hel, fun j hj => ?_⟩
      have hlt : k * sz + sz ≤ g.xs.length * sz := by
        have := Nat.mul_le_mul_right sz hk1
        rw [Nat.succ_mul] at this; exact this
      have e1 := pools_contents hpool hg (fun y hy => List.mem_flatMap.2 ⟨g, h1', by unfold Ghost.own; rw [← hve]; exact hy⟩) (k * sz + j) (by omega)
      have e2 : g.xs.flatten[k * sz + j]? = g.xs[k][j]? := by
        have hsl := hg.slice k 1 hk1
        rw [List.drop_eq_getElem_cons hk1, List.take_succ_cons, List.take_zero, List.flatten_singleton, Nat.one_mul] at hsl
        rw [← hg.data, List.getElem?_take_of_lt (by omega), ← hsl, List.getElem?_take_of_lt hj, List.getElem?_drop]
      rw [e2] at e1
      have hj' : j < g.xs[k].length := by rw [hel]; exact hj
      rw [List.getElem?_eq_getElem hj'] at e1 ⊢
      rw [he', Nat.add_assoc]
      exact heap_add_left e1

example : ASane demoTy 4 [.newRange [[1, 2, 3, 4], [5, 6, 7, 8]], .resize 0 3, .move 0, .assign 0 [[0, 0, 0, 1]], .assignFrom 0 1 1 2, .read 0 1] := by
  refine ⟨by decide, ?_⟩
  rintro ⟨o, ho, h⟩
  revert h
  simp only [List.mem_cons, List.not_mem_nil, or_false] at ho
  rcases ho with rfl | rfl | rfl | rfl | rfl | rfl <;> decide

example : ((aplay 2 (mallocator (demoSys .direct)) 4096 [.newRange [[1, 2], [3, 4]], .resize 0 3, .move 0, .assign 0 [[0, 1]], .assignFrom 0 1 1 1, .read 0 0, .read 1 0]
    (demoWorld 0)).test fun c _ => decide (c.vs.map (fun v => v.size 2) = [1, 3] ∧ c.seen = [[3, 4], [1, 2]])) = true := by decide +kernel

/-- **C49, sizes and leaks**: as C43 for vectors. -/
theorem C49_no_leak_right_sizes (sys : Sys) (t : AllocTy) (hwf : t.WF) (b : Nat) (w : World) (hs : Storage w b t.size)
    (sz : Nat) (hz : 0 < sz) (ops : List ArrOp) (hops : ASane t sz ops) :
    match alife sz (strict (t.denote sys)) b ops w with
    | .ok _ w' => (∀ x, ¬ (b ≤ x ∧ x < b + t.size) → w'.heap.b x = w.heap.b x) ∧
        (∀ x, b ≤ x → x < b + t.size → (w'.heap.b x).isSome = true) ∧ ∀ a, w'.heap.t a = w.heap.t a
    | .oom w' => w'.failed = true
    | .ub => False := by
  obtain ⟨h0, hf, hd, he, hb, hfb, hft⟩ := storage_split hs
  have hfit := hops.fits hwf hz sys.plat
  have hsz : (strict (t.denote sys)).objSize = t.size := t.objSize_eq sys
  have := alife_spec (strict_sound (t.sound sys hwf)) b sz hz ops hfit.1 hfit.2 hs.1 hs.2.1 (by rw [hsz]; exact hs.2.2.1) w h0 hf hd he
    (by rw [hsz]; exact hb)
  cases hp : alife sz (strict (t.denote sys)) b ops w with
  | oom w' => rw [hp] at this; exact this
  | ub => rw [hp] at this; exact this
  | ok c w' =>
    rw [hp] at this
    obtain ⟨⟨h', hd', he', hby⟩, hna⟩ := this
    rw [hsz] at hby
    refine ⟨fun x hx => ?_, fun x h1 h2 => ?_, fun a => ?_⟩
    · have : h'.b x = none := isSome_eq_none.1 (mt (hby.2 x).1 hx)
      rw [he']
      simp only [Heap.add, this, hfb, hx, if_false]; rfl
    · rw [he']
      exact heap_left_isSome ((hby.2 x).2 ⟨h1, h2⟩)
    · rw [he']
      simp only [Heap.add, hby.1 a, hft]; rfl

/-- `assign` from a part of the array itself is excluded in C49: it reads the block it has just freed. -/
theorem C49_assign_from_itself_false : ((do
      let c ← aplay 2 (mallocator (demoSys .direct)) 4096 [.newRange [[1, 2], [3, 4]]]
      match c.vs with
      | [v] => v.assign 2 (mallocator (demoSys .direct)) () 1 (.ref v.beg)
      | _ => M.oom) (demoWorld 0)).isUB = true := by decide +kernel

/-- **C46 is false** for arrays too, unless they are empty. -/
theorem C46_false_array (sz : Nat) (hz : 0 < sz) (A : Allocator) (c : Arrs A) (i : Nat) (v : Arr) (hi : c.vs[i]? = some v)
    (hn : 0 < v.size sz) (w w' : World) (c' : Arrs A) : c.copyAssign sz i i w ≠ .ok c' w' := by
  intro h
  have h1 : (c.copyAssign sz i i >>= fun c' => pure c'.vecs) w = .ok c'.vecs w' := by rw [M.bind_apply, h]; rfl
  rw [Arrs.copyAssign_vec] at h1
  refine C46_false_vector sz hz A c.vecs i v.vec ?_ hn w w' c'.vecs h1
  show (c.vs.map Arr.vec)[i]? = some v.vec
  rw [List.getElem?_map, hi]; rfl

theorem Arr.moveWith_vec {A B : Allocator} {sz : Nat} (s : A.St) (t : B.St) (o : Arr) :
    (Arr.moveWith sz A s B t o >>= fun r => pure (r.1, r.2.1, r.2.2.vec)) = Vec.moveWith sz A s B t o.vec := by
  unfold Arr.moveWith Vec.moveWith
  rw [← Arr.ofSize_vec]
  simp only [bind_assoc, pure_bind]
  congr 1
  funext r
  show (if o.beg ≠ 0 then _ else _) >>= _ = if o.beg ≠ 0 then _ else _
  split
  · simp only [bind_assoc]; rfl
  · rfl

theorem aplay_state (sys : Sys) (t : AllocTy) (hwf : t.WF) {A : Allocator} (hA : Sound A (t.fits sys.plat)) (hsz : A.objSize = t.size) (b : Nat)
    (w : World) (hs : Storage w b t.size) (sz : Nat) (hz : 0 < sz) (ops : List ArrOp) (hops : ASane t sz ops) (c : Arrs A) (w' : World)
    (hrun : aplay sz A b ops w = .ok c w') :
    ∃ (Γ : List Ghost) (h hf : Heap), Heap.disj h hf ∧ w'.heap = h.add hf ∧ c.vs.map Arr.vec = Γ.map Ghost.v ∧ (∀ g ∈ Γ, g.Ok sz (aweights ops)) ∧
      Pool hA b c.st (Γ.flatMap Ghost.own) h ∧ (∀ x, hf.b x = if b ≤ x ∧ x < b + t.size then none else w.heap.b x) := by
  obtain ⟨h0, hf, hd, he, hb, hfb, hft⟩ := storage_split hs
  have hfit := hops.fits hwf hz sys.plat
  have := aplay_spec hA b sz hz ops hfit.1 hfit.2 hs.1 hs.2.1 (by rw [hsz]; exact hs.2.2.1) w h0 hf hd he
    (by rw [hsz]; exact hb)
  rw [hrun] at this
  obtain ⟨⟨h', hd', he', S, _, Γ, hv, hx, hseen, hok, hp⟩, hna⟩ := this
  exact ⟨Γ, h', hf, hd', he', hv, hok, hp, hfb⟩

theorem arr_mem {c : List Arr} {Γ : List Ghost} (hv : c.map Arr.vec = Γ.map Ghost.v) {i : Nat} {v : Arr} (hi : c[i]? = some v) :
    ∃ g, Γ[i]? = some g ∧ g.v = v.vec := by
  have : (c.map Arr.vec)[i]? = some v.vec := by rw [List.getElem?_map, hi]; rfl
  exact vec_mem hv this

/-- **C46, partial**, for arrays: an empty array stays empty. Missing: the others, see `C46_false_array`. -/
theorem C46_empty_array_partial (sys : Sys) (t : AllocTy) (hwf : t.WF) (b : Nat) (w : World) (hs : Storage w b t.size)
    (sz : Nat) (hz : 0 < sz) (ops : List ArrOp) (hops : ASane t sz ops) (hrt : t.noRouting = true) (c : Arrs (t.denote sys)) (w' : World)
    (hrun : aplay sz (t.denote sys) b ops w = .ok c w') (i : Nat) (v : Arr) (hi : c.vs[i]? = some v) (hv0 : v.size sz = 0) :
    match c.copyAssign sz i i w' with
    | .ok c' _ => ∃ v', c'.vs[i]? = some v' ∧ v'.size sz = 0
    | .oom w'' => w''.failed = true
    | .ub => False := by
  obtain ⟨Γ, h, hf, hd, he, hv, hok, hp, hfb⟩ := aplay_state sys t hwf (t.sound sys hwf) (t.objSize_eq sys) b w hs sz hz ops hops c w' hrun
  obtain ⟨g, hg, hgv⟩ := arr_mem hv hi
  have hi' : c.vecs.vs[i]? = some g.v := by
    show (c.vs.map Arr.vec)[i]? = some g.v
    rw [List.getElem?_map, hi, hgv]; rfl
  have := selfAssign_empty (c := c.vecs) hz hops.1 hrt hi' hg hok hd he hp (by rw [hgv]; exact hv0)
  rw [← Arrs.copyAssign_vec, M.bind_apply] at this
  cases hr : c.copyAssign sz i i w' with
  | ok c' w'' =>
    rw [hr] at this
    obtain ⟨v', h1, h2⟩ := this
    replace h1 : c'.vs.map Arr.vec = c.vecs.vs.set i v' := h1
    have h3 : (c'.vs.map Arr.vec)[i]? = some v' := by
      rw [h1, List.getElem?_set_self (List.getElem?_eq_some_iff.1 hi').1]
    rw [List.getElem?_map] at h3
    cases h4 : c'.vs[i]? with
    | none => rw [h4] at h3; cases h3
    | some u =>
      rw [h4] at h3
      refine ⟨u, h4, ?_⟩
      have h5 : u.vec = v' := Option.some.inj h3
      rw [← h5] at h2; exact h2
  | oom w'' => rw [hr] at this; exact this
  | ub => rw [hr] at this; exact this

/-- **C48 for arrays, copying to another allocator**: as for vectors. -/
theorem C48_copy_array_to_other_allocator (sys : Sys) (t u : AllocTy) (hwf : t.WF) (hwf' : u.WF) (b b' : Nat) (w : World)
    (hs : Storage w b t.size) (hs' : Storage w b' u.size) (hdis : b + t.size ≤ b' ∨ b' + u.size ≤ b)
    (sz : Nat) (hz : 0 < sz) (ops : List ArrOp) (hops : ASane t sz ops) (c : Arrs (t.denote sys)) (w' : World)
    (hrun : aplay sz (t.denote sys) b ops w = .ok c w') (i : Nat) (v : Arr) (hi : c.vs[i]? = some v)
    (hroom : sz * (v.size sz) + u.margin < 2 ^ 64) (hemp : v.size sz = 0 → u.noRouting = true) :
    match (do let s ← (u.denote sys).init b'; Arr.copy sz (u.denote sys) s v) w' with
    | .ok r w'' => r.2.size sz = v.size sz ∧ ∀ j, j < v.size sz * sz → (w'.heap.b (v.beg + j)).isSome = true ∧
        w''.heap.b (r.2.beg + j) = w'.heap.b (v.beg + j) ∧ w''.heap.b (v.beg + j) = w'.heap.b (v.beg + j)
    | .oom w'' => w''.failed = true
    | .ub => False := by
  obtain ⟨Γ, h, hf, hd, he, hv, hok, hp, hfb⟩ := aplay_state sys t hwf (t.sound sys hwf) (t.objSize_eq sys) b w hs sz hz ops hops c w' hrun
  obtain ⟨h', hf', hd', he', hp'⟩ := two_pools_of hs' hdis hd he hp hfb
  obtain ⟨g, hg, hgv⟩ := arr_mem hv hi
  have hgo := (hok g (List.mem_of_getElem? hg)).rep
  have := copy_other sys t u hwf hwf' hs' hz hg hgo (by rw [hgv]; exact hroom) (by rw [hgv]; exact hemp) hd' he' hp'
  rw [hgv] at this
  have e : (do let s ← (u.denote sys).init b'; Vec.copy sz (u.denote sys) s v.vec) =
      ((do let s ← (u.denote sys).init b'; Arr.copy sz (u.denote sys) s v) >>= fun r => pure (r.1, r.2.vec)) := by
    simp only [bind_assoc]
    congr 1; funext s
    exact (Arr.copy_vec s v).symm
  rw [e, M.bind_apply] at this
  cases hc : (do let s ← (u.denote sys).init b'; Arr.copy sz (u.denote sys) s v : M _) w' with
  | ok r w'' => rw [hc] at this; exact this
  | oom w'' => rw [hc] at this; exact this
  | ub => rw [hc] at this; exact this

/-- As `moveLife`, for arrays. -/
def amoveLife (sz : Nat) (A : Allocator) (s : A.St) (B : Allocator) (b' : Nat) (v : Arr) (vs : List Arr) : M (B.St × Arr) := do
  let t ← B.init b'
  let r ← Arr.moveWith sz A s B t v
  let s' ← Arrs.destroyAll sz r.1 vs
  A.fini s'
  pure r.2

/-- **C47, partial**, for arrays: as for vectors, elements of one byte. Missing: larger elements, for which it is false. -/
theorem C47_single_bytes_array_partial (sys : Sys) (t u : AllocTy) (hwf : t.WF) (hwf' : u.WF) (b b' : Nat) (w : World)
    (hs : Storage w b t.size) (hs' : Storage w b' u.size) (hdis : b + t.size ≤ b' ∨ b' + u.size ≤ b)
    (ops : List ArrOp) (hops : ASane t 1 ops) (c : Arrs (strict (t.denote sys))) (w' : World)
    (hrun : aplay 1 (strict (t.denote sys)) b ops w = .ok c w') (i : Nat) (v : Arr) (hi : c.vs[i]? = some v)
    (hroom : v.size 1 + u.margin < 2 ^ 64) (hemp : v.size 1 = 0 → u.noRouting = true) :
    match amoveLife 1 (strict (t.denote sys)) c.st (u.denote sys) b' v (c.vs.eraseIdx i) w' with
    | .ok r w'' => r.2.size 1 = v.size 1 ∧ ∀ j, j < v.size 1 → (w'.heap.b (v.beg + j)).isSome = true ∧
        w''.heap.b (r.2.beg + j) = w'.heap.b (v.beg + j)
    | .oom w'' => w''.failed = true
    | .ub => False := by
  obtain ⟨Γ, h, hf, hd, he, hv, hok, hp, hfb⟩ := aplay_state sys t hwf (strict_sound (t.sound sys hwf)) (t.objSize_eq sys) b w hs 1 (by omega) ops hops c w' hrun
  obtain ⟨h', hf', hd', he', hp'⟩ := two_pools_of hs' hdis hd he hp hfb
  obtain ⟨g, hg, hgv⟩ := arr_mem hv hi
  have := move_other sys t u hwf hwf' hs' (by have := hops.1; omega) hg hok (by rw [hgv]; exact hroom) (by rw [hgv]; exact hemp) hd' he' hp'
  rw [hgv, ← hv, Linear.map_eraseIdx'] at this
  have e : moveLife 1 (strict (t.denote sys)) c.st (u.denote sys) b' v.vec ((c.vs.eraseIdx i).map Arr.vec) =
      (amoveLife 1 (strict (t.denote sys)) c.st (u.denote sys) b' v (c.vs.eraseIdx i) >>= fun r => pure (r.1, r.2.vec)) := by
    unfold moveLife amoveLife
    simp only [bind_assoc]
    congr 1; funext s
    rw [← Arr.moveWith_vec]
    simp only [bind_assoc, pure_bind]
    congr 1; funext r
    rw [Arrs.destroyAll_vec]
  rw [e, M.bind_apply] at this
  cases hc : amoveLife 1 (strict (t.denote sys)) c.st (u.denote sys) b' v (c.vs.eraseIdx i) w' with
  | ok r w'' => rw [hc] at this; exact this
  | oom w'' => rw [hc] at this; exact this
  | ub => rw [hc] at this; exact this

/-- **C47 is false** for arrays too, for every element size above one and every nonempty array. -/
theorem C47_false_array (sys : Sys) (t : AllocTy) (hwf : t.WF) (B : Allocator) (s : B.St) (b : Nat) (w : World)
    (hs : Storage w b t.size) (sz : Nat) (hz : 1 < sz) (ops : List ArrOp) (hops : ASane t sz ops) (c : Arrs (strict (t.denote sys))) (w' : World)
    (hrun : aplay sz (strict (t.denote sys)) b ops w = .ok c w') (i : Nat) (v : Arr) (hi : c.vs[i]? = some v)
    (hcap : 0 < v.size sz) (hnw : sz * (v.size sz * sz) < 2 ^ 64) (w1 w2 : World)
    (r : (strict (t.denote sys)).St × B.St × Arr) :
    Arr.moveWith sz (strict (t.denote sys)) c.st B s v w1 ≠ .ok r w2 := by
  intro hr
  obtain ⟨Γ, h, hf, hd, he, hv, hok, hp, hfb⟩ := aplay_state sys t hwf (strict_sound (t.sound sys hwf)) (t.objSize_eq sys) b w hs sz
    (by omega) ops hops c w' hrun
  obtain ⟨g, hg, hgv⟩ := arr_mem hv hi
  have h1 : Vec.moveWith sz (strict (t.denote sys)) c.st B s g.v w1 = .ok (r.1, r.2.1, r.2.2.vec) w2 := by
    rw [hgv, ← Arr.moveWith_vec, M.bind_apply, hr]; rfl
  have e : g.v.capacity sz = v.size sz := by rw [hgv]; rfl
  exact moveWith_refused hz hg (hok g (List.mem_of_getElem? hg)).rep hp (by rw [e]; exact hcap) (by rw [e]; exact hnw) h1

example : ((aplay 2 (strict (mallocator (demoSys .direct))) 4096 [.newRange [[1, 2], [3, 4]], .resize 0 5] (demoWorld 0)).test fun c _ =>
    decide (c.vs.map (fun v => v.size 2) = [5] ∧ c.st.2.held.length = 1)) = true := by decide +kernel

/-- The same as an accident: moving an array of 8-byte elements to another allocator hands its block back with a
wrong size. -/
theorem C47_false_array_overflow : ((do
      let c ← aplay 8 (overflow (mallocator (demoSys .direct))) 4096 [.newRange [[1, 2, 3, 4, 5, 6, 7, 8]]]
      match c.vs with
      | [v] => Arr.moveWith 8 (overflow (mallocator (demoSys .direct))) c.st (mallocator (demoSys .direct)) () v
      | _ => M.oom) (demoWorld 32)).isUB = true := by decide +kernel

end KTL
