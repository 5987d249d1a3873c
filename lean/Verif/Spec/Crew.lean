import Verif.Spec.Oracle
import Mathlib.Data.List.Dedup

/- Proof machinery for threads: each thread keeps to its own blocks. -/
namespace KTL

/-- The addresses that the thread accesses, or gives back, in its next step. -/
def Prog.touches {α : Type} : Prog α → Nat → Prop
  | .load p _, x => x = p
  | .store p _ _, x => x = p
  | .dealloc p n _, x => p ≤ x ∧ x < p + n
  | _, _ => False

theorem flatMap_split {α} (l : List Nat) (hl : l.Nodup) (i : Nat) (hi : i ∈ l) (R : Nat → List α) :
    ∃ rest, (l.flatMap R).Perm (R i ++ rest) ∧ (∀ X, (l.flatMap fun j => if j = i then X else R j).Perm (X ++ rest)) ∧
      ∀ j ∈ l, j ≠ i → ∀ x ∈ R j, x ∈ rest := by
  have hp : l.Perm (i :: l.erase i) := List.perm_cons_erase hi
  refine ⟨(l.erase i).flatMap R, hp.flatMap_right R, fun X => ?_, fun j hj hji x hx =>
    List.mem_flatMap.2 ⟨j, (List.mem_erase_of_ne hji).2 hj, hx⟩⟩
  refine (hp.flatMap_right _).trans (.of_eq ?_)
  rw [List.flatMap_cons, if_pos rfl]
  congr 1
  refine List.flatMap_congr fun j hj => ?_
  have : j ≠ i := fun e => by subst e; exact hl.not_mem_erase hj
  rw [if_neg this]

section
variable {α : Type} {A : Allocator} {f : Nat → Prop}

/-- Thread `i` has the blocks `R i`, and is safe with them. Proof helper, not code. -/
def CInv (hA : Sound A f) (b : Nat) (Q : Nat → α → Prop) (l : List Nat) (c : Crew A α) : HProp := fun h =>
  ∃ R : Nat → List (Nat × List UInt8), (∀ i, Safe f (Q i) (c.threads i) (R i)) ∧ (∀ i, i ∉ l → R i = []) ∧ Pool hA b c.st (l.flatMap R) h

theorem CInv.intro {hA : Sound A f} {b : Nat} {Q : Nat → α → Prop} {l : List Nat} {c : Crew A α} {R : Nat → List (Nat × List UInt8)}
    (hS : ∀ i, Safe f (Q i) (c.threads i) (R i)) (hN : ∀ i, i ∉ l → R i = []) (i : Nat) (hi : i ∈ l) (p : Prog α) (s : A.St)
    (X : List (Nat × List UInt8)) (hp : Safe f (Q i) p X) (rest : List (Nat × List UInt8))
    (hr : (l.flatMap fun j => if j = i then X else R j).Perm (X ++ rest)) {h : Heap} (hpool : Pool hA b s (X ++ rest) h) :
    CInv hA b Q l { c.put i p with st := s } h := by
  refine ⟨fun j => if j = i then X else R j, fun j => ?_, fun j hj => ?_, ?_⟩
  · show Safe f (Q j) (if j = i then p else c.threads j) (if j = i then X else R j)
    by_cases e : j = i
    · subst e; rw [if_pos rfl, if_pos rfl]; exact hp
    · rw [if_neg e, if_neg e]; exact hS j
  · have : j ≠ i := fun e => hj (e ▸ hi)
    simp only [if_neg this]; exact hN j hj
  · rw [Pool.perm hr]; exact hpool

theorem pool_load (hA : Sound A f) (b : Nat) (s : A.St) (R : List (Nat × List UInt8)) {q p : Nat} {bs : List UInt8} {v : UInt8}
    (hm : (q, bs) ∈ R) (hq : q ≤ p) (hv : bs[p - q]? = some v) :
    Triple (Pool hA b s R) (M.load p) (fun r h => r = v ∧ Pool hA b s R h) := by
  intro w h hf hd he hp
  obtain ⟨hlt, hv'⟩ := List.getElem?_eq_some_iff.1 hv
  have hb : w.heap.b p = some v := by
    obtain ⟨h1, h2, hd1, rfl, _, hB⟩ := id hp
    have := blocksV_mem hB hm (p - q) hlt
    rw [Nat.add_sub_cancel' hq, hv'] at this
    rw [he]
    show ((h1.b p).or (h2.b p)).or (hf.b p) = _
    rcases hd1.1 p with e | e
    · rw [e, this]; rfl
    · rw [e] at this; cases this
  have e : M.load p w = .ok v w := by simp only [M.load, hb]
  rw [e]
  exact ⟨⟨h, hd, he, rfl, hp⟩, .rfl'⟩

theorem pool_store (hA : Sound A f) (b : Nat) (s : A.St) (R R' : List (Nat × List UInt8)) {q p : Nat} {bs : List UInt8} (v : UInt8)
    (hR : R.Perm ((q, bs) :: R')) (hq : q ≤ p) (hlt : p - q < bs.length) :
    Triple (Pool hA b s R) (M.store p v) (fun _ => Pool hA b s ((q, bs.set (p - q) v) :: R')) := by
  have hst := (blocks_store v hR hlt).frame (hA.Inv b s (R.map blk))
  rw [Nat.add_sub_cancel' hq] at hst
  refine Triple.conseq hst (fun h hh => ?_) fun _ h hh => ?_
  · rw [star_comm]; exact hh
  · rw [star_comm] at hh
    obtain ⟨h1, h2, hd, e, hI, hB⟩ := hh
    refine ⟨h1, h2, hd, e, hA.perm ((hR.map blk).trans (.of_eq ?_)) hI, hB⟩
    simp [blk]

/-- One step of one thread keeps every thread safe. -/
theorem crew_step (hA : Sound A f) (b : Nat) (Q : Nat → α → Prop) (l : List Nat) (hl : l.Nodup) (c : Crew A α) (i : Nat) (hi : i ∈ l) :
    Triple (CInv hA b Q l c) (c.step i) (fun c' => CInv hA b Q l c') := by
  refine Triple.exists fun R => Triple.and fun hS => Triple.and fun hN => ?_
  obtain ⟨rest, hr1, hr2, _⟩ := flatMap_split l hl i hi R
  have hSi := hS i
  rw [Pool.perm hr1]
  unfold Crew.step
  cases hT : c.threads i with
  | ret a =>
    refine Triple.pure _ fun h hh => ⟨R, hS, hN, ?_⟩
    rw [Pool.perm hr1]; exact hh
  | stop => exact Triple.oom
  | ub => rw [hT] at hSi; exact hSi.elim
  | load p k =>
    rw [hT] at hSi
    obtain ⟨q, bs, v, hm, hq, hv, hk⟩ := hSi
    refine Triple.bind (pool_load hA b c.st _ (List.mem_append_left rest hm) hq hv) fun r => Triple.pure _ fun h hh => ?_
    obtain ⟨rfl, hh⟩ := hh
    exact CInv.intro hS hN i hi (k r) c.st (R i) hk rest (hr2 (R i)) hh
  | store p v k =>
    rw [hT] at hSi
    obtain ⟨q, bs, R', hR, hq, hlt, hk⟩ := hSi
    refine Triple.bind (pool_store hA b c.st _ (R' ++ rest) v ((hR.append_right rest).trans (.of_eq rfl)) hq hlt) fun r => Triple.pure _ fun h hh => ?_
    exact CInv.intro hS hN i hi k c.st _ hk rest (hr2 _) hh
  | alloc n k =>
    rw [hT] at hSi
    obtain ⟨hf, hn, hk0, hk⟩ := hSi
    refine Triple.bind ((hA.alloc_spec b c.st ((R i ++ rest).map blk) n hf hn).frame (blocksV (R i ++ rest))) fun r => Triple.pure _ fun h hh => ?_
    obtain ⟨h1, h2, hd, rfl, (⟨e, hI⟩ | ⟨hg, h3, h4, hd', rfl, hI, hB⟩), hR⟩ := hh
    · rw [e]
      exact CInv.intro hS hN i hi (k 0) r.2 (R i) hk0 rest (hr2 _) ⟨h1, h2, hd, rfl, hI, hR⟩
    · obtain ⟨bs, hlen, hV⟩ := bytes_exists hB
      have hd2 := Heap.disj_add_left.1 hd
      have hall : blocksV ((r.1, bs) :: (R i ++ rest)) (h4.add h2) := ⟨h4, h2, hd2.2, rfl, hV, hR⟩
      refine CInv.intro hS hN i hi (k r.1) r.2 ((r.1, bs) :: R i) (hk r.1 bs hg hlen ?_) rest (hr2 _) ?_
      · have hall : blocksV (((r.1, bs) :: R i) ++ rest) (h4.add h2) := hall
        rw [blocksV_append] at hall
        obtain ⟨a, _, _, _, ha, _⟩ := hall
        exact ⟨a, ha⟩
      · refine ⟨h3, h4.add h2, Heap.disj_add_right.2 ⟨hd', hd2.1⟩, Heap.add_assoc _ _ _, ?_, hall⟩
        rw [← hlen] at hI
        exact hI
  | dealloc p n k =>
    rw [hT] at hSi
    obtain ⟨bs, R', hR, rfl, hk⟩ := hSi
    rw [Pool.perm (hR.append_right rest)]
    refine Triple.bind (hA.dealloc_spec b c.st p bs (R' ++ rest)) fun s => Triple.pure _ fun h hh => ?_
    exact CInv.intro hS hN i hi k s R' hk rest (hr2 _) hh

theorem crew_run (hA : Sound A f) (b : Nat) (Q : Nat → α → Prop) (l : List Nat) (hl : l.Nodup) (sched : List Nat) (hs : ∀ i ∈ sched, i ∈ l)
    (c : Crew A α) : Triple (CInv hA b Q l c) (c.run sched) (fun c' => CInv hA b Q l c') := by
  induction sched generalizing c with
  | nil => exact Triple.pure _ fun _ h => h
  | cons i is ih =>
    exact Triple.bind (crew_step hA b Q l hl c i (hs i List.mem_cons_self)) fun c' => ih (fun j hj => hs j (List.mem_cons_of_mem _ hj)) c'

/-- Threads that are safe by themselves are safe together. -/
theorem crew_spec (hA : Sound A f) (b : Nat) (Q : Nat → α → Prop) (progs : Nat → Prog α) (hp : ∀ i, Safe f (Q i) (progs i) [])
    (sched : List Nat) (h1 : b ≠ 0) (h2 : b % 16 = 0) (h3 : b + A.objSize < W64) :
    Triple (bytes b A.objSize) (crewPlay A b progs sched) (fun c => CInv hA b Q sched.dedup c) := by
  refine Triple.bind (hA.init_spec b h1 h2 h3) fun s => ?_
  refine (crew_run hA b Q _ sched.nodup_dedup sched (fun i hi => List.mem_dedup.2 hi) _).pre fun h hh => ?_
  refine ⟨fun _ => [], hp, fun _ _ => rfl, ?_⟩
  have : (sched.dedup.flatMap fun _ => ([] : List (Nat × List UInt8))) = [] := by simp
  rw [this]
  show (hA.Inv b s [] ∗ blocksV []) h
  rw [blocksV_nil, star_emp]; exact hh

/-- What a program does with every sound allocator it does in a thread. -/
theorem safe_of_triple {Q : α → Prop} {T : Prog α} (hT : ∀ s, Triple ((oracle_sound f).Inv 0 s []) (T.seq (oracle f) s)
    (fun r h => Q r.2 ∧ (oracle_sound f).Inv 0 r.1 [] h)) : Safe f Q T [] := by
  refine safe_of_alone f Q T [] ⟨Heap.empty, rfl⟩ ⟨[], .nil, fun script w hw => ?_⟩
  have hw : w.heap = Heap.empty := hw
  have := hT (⟨script, []⟩ : Oracle) w Heap.empty Heap.empty (Heap.disj_empty _) (hw.trans (Heap.add_empty _).symm) ⟨⟨.nil, by simp⟩, rfl⟩
  cases e : T.seq (oracle f) (⟨script, []⟩ : Oracle) w with
  | ok r w' =>
    rw [e] at this
    obtain ⟨⟨h', _, _, hq, ⟨hi, _⟩, _⟩, _⟩ := this
    exact ⟨hi.eq_nil, hq⟩
  | oom w' => trivial
  | ub => rw [e] at this; exact this

theorem Safe.touch {Q : α → Prop} {T : Prog α} {R : List (Nat × List UInt8)} (h : Safe f Q T R) {x : Nat} (hx : T.touches x) : inLive (R.map blk) x := by
  cases T with
  | ret a => exact hx.elim
  | stop => exact hx.elim
  | ub => exact hx.elim
  | alloc n k => exact hx.elim
  | load p k =>
    obtain rfl : x = p := hx
    obtain ⟨q, bs, v, hm, hq, hv, _⟩ := h
    have := (List.getElem?_eq_some_iff.1 hv).1
    exact ⟨_, List.mem_map.2 ⟨_, hm, rfl⟩, hq, by show x < q + bs.length; omega⟩
  | store p v k =>
    obtain rfl : x = p := hx
    obtain ⟨q, bs, R', hR, hq, hlt, _⟩ := h
    exact ⟨_, List.mem_map.2 ⟨_, hR.mem_iff.2 List.mem_cons_self, rfl⟩, hq, by show x < q + bs.length; omega⟩
  | dealloc p n k =>
    obtain ⟨bs, R', hR, rfl, _⟩ := h
    exact ⟨_, List.mem_map.2 ⟨_, hR.mem_iff.2 List.mem_cons_self, rfl⟩, hx.1, hx.2⟩

/-- no two threads are about to touch the same byte -/
theorem CInv.race_free {hA : Sound A f} {b : Nat} {Q : Nat → α → Prop} {l : List Nat} (hl : l.Nodup) {c : Crew A α} {h : Heap} (hc : CInv hA b Q l c h)
    {i j : Nat} (hij : i ≠ j) {x : Nat} (hi : (c.threads i).touches x) (hj : (c.threads j).touches x) : False := by
  obtain ⟨R, hS, hN, h1, h2, hd, rfl, hI, hB⟩ := hc
  have ti := (hS i).touch hi
  have tj := (hS j).touch hj
  have hmem : ∀ k, inLive ((R k).map blk) x → k ∈ l := fun k hk => Classical.byContradiction fun hn => by
    rw [hN k hn] at hk; obtain ⟨_, hm, _⟩ := hk; cases hm
  obtain ⟨rest, hr1, _, hr3⟩ := flatMap_split l hl i (hmem i ti) R
  rw [blocksV_perm hr1, blocksV_append] at hB
  obtain ⟨a, d, hd', rfl, ha, hb⟩ := hB
  have tj' : inLive (rest.map blk) x := by
    obtain ⟨y, hy, hy'⟩ := id tj
    obtain ⟨z, hz, rfl⟩ := List.mem_map.1 hy
    exact ⟨_, List.mem_map.2 ⟨z, hr3 j (hmem j tj) (Ne.symm hij) z hz, rfl⟩, hy'⟩
  exact disj_isSome hd' (blocksV_isSome ha ti) (blocksV_isSome hb tj')

/-- when all threads have ended, nothing is out -/
theorem CInv.done {hA : Sound A f} {b : Nat} {Q : Nat → α → Prop} {l : List Nat} {c : Crew A α} {h : Heap} (hc : CInv hA b Q l c h)
    (hd : ∀ i ∈ l, ∃ a, c.threads i = .ret a) : hA.Inv b c.st [] h := by
  obtain ⟨R, hS, hN, hp⟩ := hc
  have : l.flatMap R = [] := by
    rw [List.flatMap_eq_nil_iff]
    intro i hi
    obtain ⟨a, ha⟩ := hd i hi
    have := hS i
    rw [ha] at this
    exact this.1
  rw [this] at hp
  have hp : (hA.Inv b c.st [] ∗ blocksV []) h := hp
  rwa [blocksV_nil, star_emp] at hp

end
end KTL
