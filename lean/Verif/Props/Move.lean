import Verif.Base.Post
import Verif.Spec.Demo
import Verif.Spec.Moving
import Verif.Props.Memory

/- C60: moving allocators. -/
namespace KTL

section
variable {A : Allocator} {fA : Nat → Prop} (hA : Sound A fA)

/-- memory of a place -/
def objInv (o : MvObj A) : HProp := fun h => (o.addr ≠ 0 ∧ o.addr % 16 = 0 ∧ o.addr + A.objSize < W64) ∧
  ((match o.st with
    | none => fun h => o.live = [] ∧ bytes o.addr A.objSize h
    | some s => hA.Inv o.addr s (o.live.map blk)) ∗ blocksV o.live ∗ foreignV o.foreign) h

/-- memory of all places -/
def objsInv : List (MvObj A) → HProp
  | [] => emp
  | o :: os => objInv hA o ∗ objsInv os

theorem objsInv_perm {xs ys : List (MvObj A)} (h : xs.Perm ys) : objsInv hA xs = objsInv hA ys := by
  induction h with
  | nil => rfl
  | cons x _ ih => simp only [objsInv, ih]
  | swap x y l => simp only [objsInv, star_left_comm]
  | trans _ _ ih1 ih2 => rw [ih1, ih2]

end

theorem perm_two {α} {l : List α} {i j : Nat} {x y : α} (hij : i ≠ j) (hi : l[i]? = some x) (hj : l[j]? = some y) :
    ∃ rest, l.Perm (x :: y :: rest) ∧ ∀ x' y', ((l.set i x').set j y').Perm (x' :: y' :: rest) := by
  induction l generalizing i j with
  | nil => simp at hi
  | cons a l ih =>
    cases i with
    | zero =>
      cases j with
      | zero => exact absurd rfl hij
      | succ j =>
        simp only [List.getElem?_cons_zero, Option.some.injEq] at hi
        subst hi
        rw [List.getElem?_cons_succ] at hj
        exact ⟨l.eraseIdx j, (perm_eraseIdx hj).cons _, fun x' y' => by simpa using perm_set hj⟩
    | succ i =>
      rw [List.getElem?_cons_succ] at hi
      cases j with
      | zero =>
        simp only [List.getElem?_cons_zero, Option.some.injEq] at hj
        subst hj
        refine ⟨l.eraseIdx i, ((perm_eraseIdx hi).cons _).trans (.swap _ _ _), fun x' y' => ?_⟩
        simp only [List.set_cons_succ, List.set_cons_zero]
        exact ((perm_set hi).cons _).trans (.swap _ _ _)
      | succ j =>
        rw [List.getElem?_cons_succ] at hj
        obtain ⟨rest, h1, h2⟩ := ih (by omega) hi hj
        refine ⟨a :: rest, ((h1.cons a).trans (.swap _ _ _)).trans ((List.Perm.swap _ _ _).cons _), fun x' y' => ?_⟩
        simp only [List.set_cons_succ]
        exact (((h2 x' y').cons a).trans (.swap _ _ _)).trans ((List.Perm.swap _ _ _).cons _)

section
variable {A : Allocator} {fA : Nat → Prop} {hA : Sound A fA} {m : Moves A}

/-- one place changes -/
theorem obj_one {α} {objs : List (MvObj A)} {i : Nat} {o : MvObj A} (hi : objs[i]? = some o) {c : M α} {f : α → MvObj A}
    (h : Triple (objInv hA o) c (fun a => objInv hA (f a))) :
    Triple (objsInv hA objs) (c >>= fun a => pure (objs.set i (f a))) (fun objs' => objsInv hA objs') := by
  rw [objsInv_perm hA (perm_eraseIdx hi), objsInv]
  refine Triple.bind (h.frame _) (fun a => Triple.pure _ (fun g hg => ?_))
  rw [objsInv_perm hA (perm_set hi), objsInv]
  exact hg

/-- two places change -/
theorem obj_two {α} {objs : List (MvObj A)} {i j : Nat} {o p : MvObj A} (hij : i ≠ j) (hi : objs[i]? = some o) (hj : objs[j]? = some p) {c : M α}
    {f g : α → MvObj A} (h : Triple (objInv hA o ∗ objInv hA p) c (fun a => objInv hA (f a) ∗ objInv hA (g a))) :
    Triple (objsInv hA objs) (c >>= fun a => pure ((objs.set i (f a)).set j (g a))) (fun objs' => objsInv hA objs') := by
  obtain ⟨rest, h1, h2⟩ := perm_two hij hi hj
  rw [objsInv_perm hA h1, objsInv, objsInv, ← star_assoc]
  refine Triple.bind (h.frame _) (fun a => Triple.pure _ (fun k hk => ?_))
  rw [objsInv_perm hA (h2 _ _), objsInv, objsInv, ← star_assoc]
  exact hk

theorem mvstep_spec (sys : Sys) (hm : m.Builds hA) (objs : List (MvObj A)) (o : MvOp) (ha : (∃ i j, o = .moveTo i j) → m.Assigns hA)
    (ho : ∀ i n, o = .use i (.allocate n) → n < W64 ∧ fA n) :
    Triple (objsInv hA objs) (o.step sys m objs) (fun objs' => objsInv hA objs') := by
  have same : Triple (objsInv hA objs) (pure objs : M (List (MvObj A))) (fun objs' => objsInv hA objs') := Triple.pure _ (fun _ h => h)
  cases o with
  | create i =>
    simp only [MvOp.step]
    split
    · rename_i a L R hi
      refine obj_one hi (f := fun s => ⟨a, some s, L, R⟩) ?_
      unfold objInv
      refine Triple.and (fun hg => ?_)
      dsimp only
      rw [star_and]
      refine Triple.and (fun hL => ?_)
      have hL : L = [] := hL
      subst hL
      refine ((hA.init_spec a hg.1 hg.2.1 hg.2.2).frame _).post (fun s h hh => ⟨hg, hh⟩)
    · exact same
  | moveNew i j =>
    simp only [MvOp.step]
    split
    · rename_i a K R b s L S hi hj
      split
      · rename_i hc
        have hij : i ≠ j := by
          rintro rfl
          rw [hi] at hj
          injection hj with h
          injection h with _ h
          cases h
        refine obj_two hij hi hj (f := fun r : A.St × A.St => ⟨a, some r.1, L, R⟩) (g := fun r => ⟨b, some r.2, [], S⟩) ?_
        unfold objInv
        rw [star_and]
        refine Triple.and (fun hg => ?_)
        rw [star_and']
        refine Triple.and (fun hg' => ?_)
        dsimp only
        rw [star_and, star_and]
        refine Triple.and (fun hK => ?_)
        have hK : K = [] := hK
        subst hK
        have e : ((bytes a A.objSize ∗ blocksV [] ∗ foreignV R) ∗ (hA.Inv b s (L.map blk) ∗ blocksV L ∗ foreignV S)) =
          ((hA.Inv b s (L.map blk) ∗ bytes a A.objSize) ∗ (blocksV L ∗ foreignV R ∗ foreignV S)) := by
          rw [blocksV_nil, emp_star]; ac_rfl
        rw [e]
        refine ((hm.ctor_spec a b s (L.map blk) hg.1 hg.2.1 hg.2.2 hc.1 (hc.2.imp (fun h => by rw [h]; rfl) id)).frame _).post (fun r h hh => ?_)
        have e2 : ((hA.Inv a r.1 (L.map blk) ∗ hA.Inv b r.2 []) ∗ (blocksV L ∗ foreignV R ∗ foreignV S)) =
          ((hA.Inv a r.1 (L.map blk) ∗ blocksV L ∗ foreignV R) ∗ (hA.Inv b r.2 [] ∗ blocksV [] ∗ foreignV S)) := by
          rw [blocksV_nil, emp_star]; ac_rfl
        rw [e2] at hh
        exact star_mono (fun h hh => ⟨hg, hh⟩) (fun h hh => ⟨hg', hh⟩) h hh
      · exact same
    · exact same
  | moveTo i j =>
    simp only [MvOp.step]
    split
    · rename_i a t K R b s L S hi hj
      split
      · rename_i hij
        subst hij
        rw [hi] at hj
        obtain ⟨rfl, rfl, rfl, rfl⟩ : a = b ∧ t = s ∧ K = L ∧ R = S := by simpa using hj
        split
        · rename_i hL
          refine obj_one hi (f := fun r : A.St => ⟨a, some r, K, R⟩) ?_
          unfold objInv
          refine Triple.and (fun hg => ?_)
          dsimp only
          rw [← star_assoc]
          refine (((ha ⟨i, i, rfl⟩).self_spec a t K hL).frame _).post (fun r h hh => ⟨hg, ?_⟩)
          rw [star_assoc] at hh
          exact hh
        · exact same
      rename_i hij
      split
      · rename_i hc
        obtain ⟨hK, hr, hL⟩ := hc
        subst hK
        refine obj_two hij hi hj (f := fun r : A.St × A.St => ⟨a, some r.1, L, R⟩) (g := fun r => ⟨b, some r.2, [], S⟩) ?_
        unfold objInv
        rw [star_and]
        refine Triple.and (fun hg => ?_)
        rw [star_and']
        refine Triple.and (fun hg' => ?_)
        dsimp only
        have e : ((hA.Inv a t [] ∗ blocksV [] ∗ foreignV R) ∗ (hA.Inv b s (L.map blk) ∗ blocksV L ∗ foreignV S)) =
          ((hA.Inv a t [] ∗ hA.Inv b s (L.map blk)) ∗ (blocksV L ∗ foreignV R ∗ foreignV S)) := by
          rw [blocksV_nil, emp_star]; ac_rfl
        rw [List.map_nil, e]
        refine (((ha ⟨i, j, rfl⟩).assign_spec a b t s (L.map blk) hr (hL.imp (fun h => by rw [h]; rfl) id)).frame _).post (fun r h hh => ?_)
        have e2 : ((hA.Inv a r.1 (L.map blk) ∗ hA.Inv b r.2 []) ∗ (blocksV L ∗ foreignV R ∗ foreignV S)) =
          ((hA.Inv a r.1 (L.map blk) ∗ blocksV L ∗ foreignV R) ∗ (hA.Inv b r.2 [] ∗ blocksV [] ∗ foreignV S)) := by
          rw [blocksV_nil, emp_star]; ac_rfl
        rw [e2] at hh
        exact star_mono (fun h hh => ⟨hg, hh⟩) (fun h hh => ⟨hg', hh⟩) h hh
      · exact same
    · exact same
  | use i q =>
    simp only [MvOp.step]
    split
    · rename_i a s L R hi
      refine obj_one hi (f := fun c : Client A => ⟨a, some c.st, c.live, c.foreign⟩) ?_
      unfold objInv
      refine Triple.and (fun hg => ?_)
      dsimp only
      refine (step_spec sys hA a { st := s, live := L, foreign := R } q (fun n h => ho i n (by rw [h]))).post (fun c h hh => ⟨hg, hh⟩)
    · exact same
  | destroy i =>
    simp only [MvOp.step]
    split
    · rename_i a s L R hi
      split
      · rename_i hL
        subst hL
        refine obj_one hi (f := fun _ : Unit => ⟨a, none, [], R⟩) ?_
        unfold objInv
        refine Triple.and (fun hg => ?_)
        dsimp only
        refine ((hA.fini_spec a s).frame _).post (fun _ h hh => ⟨hg, ?_⟩)
        exact star_mono_left (fun h hh => ⟨rfl, hh⟩) h hh
      · exact same
    · exact same

theorem mvrun_spec (sys : Sys) (hm : m.Builds hA) (ops : List MvOp) (objs : List (MvObj A)) (ha : (∃ i j, .moveTo i j ∈ ops) → m.Assigns hA)
    (ho : ∀ i n, .use i (.allocate n) ∈ ops → n < W64 ∧ fA n) :
    Triple (objsInv hA objs) (mvrun sys m objs ops) (fun objs' => objsInv hA objs') := by
  induction ops generalizing objs with
  | nil => exact Triple.pure _ (fun _ h => h)
  | cons o os ih =>
    refine Triple.bind (mvstep_spec sys hm objs o (fun ⟨i, j, h⟩ => ha ⟨i, j, by rw [h]; exact List.mem_cons_self⟩)
      (fun i n h => ho i n (by rw [h]; exact List.mem_cons_self))) (fun objs' => ?_)
    exact ih objs' (fun ⟨i, j, h⟩ => ha ⟨i, j, List.mem_cons_of_mem _ h⟩) (fun i n h => ho i n (List.mem_cons_of_mem _ h))

/-- the memory of the places, split off -/
theorem places_split {w : World} {bs : List Nat} (h : Places w A.objSize bs) :
    ∃ hs hf, Heap.disj hs hf ∧ w.heap = hs.add hf ∧ objsInv hA (bs.map fun b => ⟨b, none, [], []⟩) hs ∧
      (∀ x, (∃ b ∈ bs, b ≤ x ∧ x < b + A.objSize) → hf.b x = none) ∧
      (∀ x, ¬ (∃ b ∈ bs, b ≤ x ∧ x < b + A.objSize) → hf.b x = w.heap.b x) ∧ hf.t = w.heap.t := by
  induction bs generalizing w with
  | nil => exact ⟨.empty, w.heap, Heap.disj_comm (Heap.disj_empty _), by simp, rfl, by simp, by simp, rfl⟩
  | cons b bs ih =>
    obtain ⟨h1, h2⟩ := h
    rw [List.pairwise_cons] at h2
    obtain ⟨k, r, hd, he, hb, hr1, hr2⟩ := storage_split (h1 b (by simp))
    have hs := h1 b (by simp)
    have hP : Places { w with heap := r } A.objSize bs := by
      refine ⟨fun c hc => ?_, h2.2⟩
      have hc' := h1 c (List.mem_cons_of_mem _ hc)
      refine ⟨hc'.1, hc'.2.1, hc'.2.2.1, fun x hx1 hx2 => ?_⟩
      show (r.b x).isSome = true
      have := h2.1 c hc
      rw [hr1, if_neg (by omega)]
      exact hc'.2.2.2 x hx1 hx2
    obtain ⟨ks, rs, hd', he', hb', q1, q2, q3⟩ := ih hP
    · dsimp only at he' q2 q3
      subst he'
      have d := Heap.disj_add_right.1 hd
      refine ⟨k.add ks, rs, Heap.disj_add_left.2 ⟨d.2, hd'⟩, by rw [he, Heap.add_assoc], ?_, fun x hx => ?_, fun x hx => ?_, by rw [q3, hr2]⟩
      · refine ⟨k, ks, d.1, rfl, ⟨⟨hs.1, hs.2.1, hs.2.2.1⟩, ?_⟩, hb'⟩
        rw [blocksV_nil, foreignV, emp_star, star_emp]
        exact ⟨rfl, hb⟩
      · by_cases hx' : ∃ c ∈ bs, c ≤ x ∧ x < c + A.objSize
        · exact q1 x hx'
        · obtain ⟨c, hc, hcx⟩ := hx
          rcases List.mem_cons.1 hc with rfl | hc
          · rw [q2 x hx', hr1, if_pos hcx]
          · exact absurd ⟨c, hc, hcx⟩ hx'
      · rw [q2 x (fun ⟨c, hc, hcx⟩ => hx ⟨c, List.mem_cons_of_mem _ hc, hcx⟩), hr1, if_neg (fun h => hx ⟨b, by simp, h⟩)]

end

/-- everything about the memory after a program (helper) -/
theorem mvhistory (sys : Sys) (t : AllocTy) (hwf : t.WF) (hmv : t.movable = true) (bs : List Nat) (w : World) (hp : Places w t.size bs) (ops : List MvOp)
    (has : (∃ i j, .moveTo i j ∈ ops) → t.assignable = true) (hops : ∀ i n, .use i (.allocate n) ∈ ops → n < W64 ∧ t.fits sys.plat n) :
    match mvplay sys (t.moves sys) bs ops w with
    | .ok objs w' => ∃ h hf, Heap.disj h hf ∧ w'.heap = h.add hf ∧ objsInv (t.sound sys hwf) objs h ∧
        (∀ x, ¬ (∃ b ∈ bs, b ≤ x ∧ x < b + t.size) → hf.b x = w.heap.b x) ∧ hf.t = w.heap.t
    | .oom w' => w'.failed = true
    | .ub => False := by
  rw [← t.objSize_eq sys] at hp
  obtain ⟨hs, hf, hd, he, hb, _, h2, h3⟩ := places_split (hA := t.sound sys hwf) hp
  have := mvrun_spec sys (t.builds sys hwf hmv) ops _ (fun h => t.assigns sys hwf (has h)) hops w hs hf hd he hb
  unfold mvplay
  rw [t.objSize_eq sys] at h2
  cases hr : mvrun sys (t.moves sys) (bs.map fun b => ⟨b, none, [], []⟩) ops w with
  | ok objs w' =>
    rw [hr] at this
    obtain ⟨⟨h', hd', he', hi⟩, _⟩ := this
    exact ⟨h', hf, hd', he', hi, h2, h3⟩
  | oom w' => rw [hr] at this; exact this
  | ub => rw [hr] at this; exact this

/-- all blocks of all places -/
def allBlocks {A : Allocator} (objs : List (MvObj A)) : List (Nat × List UInt8) := objs.flatMap fun o => o.live ++ o.foreign

theorem objsInv_blocks {A : Allocator} {fA : Nat → Prop} {hA : Sound A fA} {objs : List (MvObj A)} {h : Heap} (hh : objsInv hA objs h) :
    ∃ h1 h2, Heap.disj h1 h2 ∧ h = h1.add h2 ∧ blocksV (allBlocks objs) h1 := by
  induction objs generalizing h with
  | nil => exact ⟨.empty, h, Heap.disj_comm (Heap.disj_empty _), by simp, rfl⟩
  | cons o os ih =>
    obtain ⟨g, k, hd, rfl, ⟨_, hg⟩, hk⟩ := hh
    obtain ⟨k1, k2, dk, rfl, hb⟩ := ih hk
    obtain ⟨s, r, ds, rfl, _, l, f, dl, rfl, hl, hf⟩ := hg
    obtain ⟨f1, f2, df, rfl, hb'⟩ := foreignV_blocks hf
    have e1 : (blocksV (o.live ++ o.foreign ++ allBlocks os) ∗ fun _ => True) ((s.add (l.add (f1.add f2))).add (k1.add k2)) := by
      have q : ((fun _ => True : HProp) ∗ ((blocksV o.live ∗ (blocksV o.foreign ∗ fun _ => True)))) (s.add (l.add (f1.add f2))) :=
        ⟨s, _, ds, rfl, trivial, l, _, dl, rfl, hl, f1, f2, df, rfl, hb', trivial⟩
      have q2 : (((fun _ => True : HProp) ∗ ((blocksV o.live ∗ (blocksV o.foreign ∗ fun _ => True)))) ∗ (blocksV (allBlocks os) ∗ fun _ => True))
          ((s.add (l.add (f1.add f2))).add (k1.add k2)) := ⟨_, _, hd, rfl, q, k1, k2, dk, rfl, hb, trivial⟩
      have e : (((fun _ => True : HProp) ∗ ((blocksV o.live ∗ (blocksV o.foreign ∗ fun _ => True)))) ∗ (blocksV (allBlocks os) ∗ fun _ => True)) =
        (((blocksV o.live ∗ blocksV o.foreign) ∗ blocksV (allBlocks os)) ∗ (((fun _ => True : HProp) ∗ (fun _ => True : HProp)) ∗ (fun _ => True : HProp))) := by ac_rfl
      rw [e] at q2
      rw [blocksV_append, blocksV_append]
      exact star_mono_right (fun _ _ => trivial) _ q2
    obtain ⟨a, c, dac, hac, ha, _⟩ := e1
    exact ⟨a, c, dac, hac, ha⟩

/-- memory of foreign blocks -/
theorem foreign_none (R : List (Nat × List UInt8)) (g : Heap) (hg : foreignV R g) :
    (∀ x, (∀ f ∈ R, x ≠ f.1) → g.t x = none) ∧ (∀ x, (∀ f ∈ R, ¬ (f.1 ≤ x ∧ x < f.1 + f.2.length)) → g.b x = none) := by
  induction R generalizing g with
  | nil =>
    have : g = Heap.empty := hg
    subst this; simp
  | cons f R ih =>
    obtain ⟨g1, g2, hdg, rfl, ⟨k1, k2, hdk, rfl, ht, hb⟩, hR⟩ := hg
    obtain ⟨i1, i2⟩ := ih g2 hR
    constructor
    · intro x hx
      have e1 : k1.t x = none := by rw [ht.2 x]; simp [hx f (by simp)]
      have e2 : k2.t x = none := hb.1 x
      have e3 := i1 x (fun f hf => hx f (List.mem_cons_of_mem _ hf))
      simp [e1, e2, e3]
    · intro x hx
      have e1 : k1.b x = none := ht.1 x
      have e2 : k2.b x = none := by
        have := (bytesV_length hb).2 x
        replace this : (k2.b x).isSome = true ↔ (f.1 ≤ x ∧ x < f.1 + f.2.length) := this
        have h0 := hx f (by simp)
        rw [← this] at h0
        simpa using h0
      have e3 := i2 x (fun f hf => hx f (List.mem_cons_of_mem _ hf))
      simp [e1, e2, e3]

/-- when all objects are gone, only the places and foreign blocks remain -/
theorem objsInv_gone {A : Allocator} {fA : Nat → Prop} {hA : Sound A fA} {objs : List (MvObj A)} {h : Heap} (hh : objsInv hA objs h)
    (hn : ∀ o ∈ objs, o.st.isNone = true) :
    (∀ x, (∀ o ∈ objs, ∀ f ∈ o.foreign, x ≠ f.1) → h.t x = none) ∧
    (∀ x, (∀ o ∈ objs, ¬ (o.addr ≤ x ∧ x < o.addr + A.objSize)) → (∀ o ∈ objs, ∀ f ∈ o.foreign, ¬ (f.1 ≤ x ∧ x < f.1 + f.2.length)) → h.b x = none) := by
  induction objs generalizing h with
  | nil =>
    have : h = Heap.empty := hh
    subst this; simp
  | cons o os ih =>
    obtain ⟨g, k, hd, rfl, ⟨_, hg⟩, hk⟩ := hh
    obtain ⟨i1, i2⟩ := ih hk (fun o ho => hn o (List.mem_cons_of_mem _ ho))
    obtain ⟨a, st, L, R⟩ := o
    have hst : st = none := by simpa using hn ⟨a, st, L, R⟩ (by simp)
    subst hst
    dsimp only at hg
    rw [star_and] at hg
    obtain ⟨hL, hg⟩ := hg
    have hL : L = [] := hL
    subst hL
    rw [blocksV_nil, emp_star] at hg
    obtain ⟨g1, g2, dg, rfl, hb, hf⟩ := hg
    obtain ⟨f1, f2⟩ := foreign_none _ _ hf
    constructor
    · intro x hx
      have e2 := i1 x (fun o ho => hx o (List.mem_cons_of_mem _ ho))
      simp [hb.1 x, f1 x (hx ⟨a, none, [], R⟩ (by simp)), e2]
    · intro x hx hx'
      have e2 := i2 x (fun o ho => hx o (List.mem_cons_of_mem _ ho)) (fun o ho => hx' o (List.mem_cons_of_mem _ ho))
      have h0 := hx ⟨a, none, [], R⟩ (by simp)
      have e1 : g1.b x = none := by
        have := hb.2 x
        replace this : (g1.b x).isSome = true ↔ (a ≤ x ∧ x < a + A.objSize) := this
        rw [← this] at h0
        simpa using h0
      simp [e1, f2 x (hx' ⟨a, none, [], R⟩ (by simp)), e2]

/-- places keep their addresses -/
theorem mvplay_addr (sys : Sys) {A : Allocator} (m : Moves A) (bs : List Nat) (ops : List MvOp) :
    Post (mvplay sys m bs ops) (fun objs => objs.map MvObj.addr = bs) := by
  have one : ∀ (objs : List (MvObj A)) (i : Nat) (o : MvObj A) (p : MvObj A), objs[i]? = some o → p.addr = o.addr → (objs.set i p).map MvObj.addr = objs.map MvObj.addr := by
    intro objs i o p hi hp
    apply List.ext_getElem?
    intro j
    rw [List.getElem?_map, List.getElem?_map]
    by_cases hij : i = j
    · subst hij
      rw [List.getElem?_set_self (List.getElem?_eq_some_iff.1 hi).1, hi]
      simp [hp]
    · rw [List.getElem?_set_ne hij]
  have two : ∀ (objs : List (MvObj A)) (i j : Nat) (o q : MvObj A) (p r : MvObj A), objs[i]? = some o → objs[j]? = some q → p.addr = o.addr → r.addr = q.addr →
      ((objs.set i p).set j r).map MvObj.addr = objs.map MvObj.addr := by
    intro objs i j o q p r hi hj hp hr
    by_cases hij : i = j
    · subst hij
      rw [List.set_set]
      exact one _ _ _ _ hj hr
    · rw [one (objs.set i p) j q r (by rw [List.getElem?_set_ne hij]; exact hj) hr]
      exact one _ _ _ _ hi hp
  have step : ∀ (objs : List (MvObj A)) (o : MvOp), Post (o.step sys m objs) (fun objs' => objs'.map MvObj.addr = objs.map MvObj.addr) := by
    intro objs o
    cases o <;> simp only [MvOp.step] <;> split
    · exact Post.bind' (fun s => Post.pure (by apply one; assumption; rfl))
    · exact Post.pure rfl
    · split
      · exact Post.bind' (fun s => Post.pure (by apply two; assumption; assumption; rfl; rfl))
      · exact Post.pure rfl
    · exact Post.pure rfl
    · split
      · split
        · exact Post.bind' (fun s => Post.pure (by apply one; assumption; rfl))
        · exact Post.pure rfl
      · split
        · exact Post.bind' (fun s => Post.pure (by apply two; assumption; assumption; rfl; rfl))
        · exact Post.pure rfl
    · exact Post.pure rfl
    · exact Post.bind' (fun s => Post.pure (by apply one; assumption; rfl))
    · exact Post.pure rfl
    · split
      · exact Post.bind' (fun s => Post.pure (by apply one; assumption; rfl))
      · exact Post.pure rfl
    · exact Post.pure rfl
  have run : ∀ (ops : List MvOp) (objs : List (MvObj A)), Post (mvrun sys m objs ops) (fun objs' => objs'.map MvObj.addr = objs.map MvObj.addr) := by
    intro ops
    induction ops with
    | nil => exact fun objs => Post.pure rfl
    | cons o os ih => exact fun objs => Post.bind (step objs o) (fun objs' h => (ih objs').mono (fun _ h' => h'.trans h))
  exact (run ops _).mono (fun objs h => by rw [h, List.map_map]; exact List.map_id _)

/-- Requests of a program are not empty and so small that no size computation wraps around 2^64. -/
def MvSane (t : AllocTy) (ops : List MvOp) : Prop := ∀ i n, .use i (.allocate n) ∈ ops → 0 < n ∧ n + t.margin < W64

/-! ### Theorems -/

/-- **C60, permitted moves.** A program with any number of allocator objects of the same (composed) type that creates, uses, moves
(by construction and assignment) and destroys them never runs into undefined behaviour. At any time the blocks the client holds are
disjoint, properly aligned, and contain what the client wrote, also after they moved along with their allocator; memory that was there before is
untouched. When all objects have been destroyed, everything has been given back: nothing was leaked, and nothing was freed twice (that
would be undefined behaviour).

Partial: a `freelist` can be moved from only if it has no free blocks or the blocks of the underlying allocator move along (see
`C60_freelist_false`), and assignment only to an allocator of which the client holds no block (see `C60_linear_false`). -/
theorem C60_moves_partial (sys : Sys) (t : AllocTy) (hwf : t.WF) (hmv : t.movable = true) (bs : List Nat) (w : World) (hp : Places w t.size bs)
    (ops : List MvOp) (has : (∃ i j, .moveTo i j ∈ ops) → t.assignable = true) (hops : MvSane t ops) :
    match mvplay sys (t.moves sys) bs ops w with
    | .ok objs w' =>
      (allBlocks objs).Pairwise (fun a d => ∀ x, ¬ ((a.1 ≤ x ∧ x < a.1 + a.2.length) ∧ (d.1 ≤ x ∧ x < d.1 + d.2.length))) ∧
      (∀ a ∈ allBlocks objs, ∀ i (hi : i < a.2.length), w'.heap.b (a.1 + i) = some a.2[i]) ∧
      (∀ o ∈ objs, ∀ a ∈ o.live, a.1 ≠ 0 ∧ a.1 % 16 = 0 ∧ a.1 + a.2.length < W64) ∧
      (∀ x v, ¬ (∃ b ∈ bs, b ≤ x ∧ x < b + t.size) → w.heap.b x = some v → w'.heap.b x = some v) ∧
      ((∀ o ∈ objs, o.st.isNone = true) →
        (∀ x, (∀ o ∈ objs, ∀ f ∈ o.foreign, x ≠ f.1) → w'.heap.t x = w.heap.t x) ∧
        (∀ x, ¬ (∃ b ∈ bs, b ≤ x ∧ x < b + t.size) → (∀ o ∈ objs, ∀ f ∈ o.foreign, ¬ (f.1 ≤ x ∧ x < f.1 + f.2.length)) →
          w'.heap.b x = w.heap.b x))
    | .oom w' => w'.failed = true
    | .ub => False := by
  have hn : ∀ i n, .use i (.allocate n) ∈ ops → n < W64 ∧ t.fits sys.plat n := fun i n h =>
    ⟨by have := (hops i n h).2; omega, t.fits_of_margin sys.plat hwf n (hops i n h).1 (hops i n h).2⟩
  have := mvhistory sys t hwf hmv bs w hp ops has hn
  have haddr := mvplay_addr sys (t.moves sys) bs ops
  cases hr : mvplay sys (t.moves sys) bs ops w with
  | oom w' => rw [hr] at this; exact this
  | ub => rw [hr] at this; exact this
  | ok objs w' =>
    rw [hr] at this
    obtain ⟨h, hf, hd, he, hi, h1, h2⟩ := this
    have ha := haddr w objs w' hr
    obtain ⟨g1, g2, dg, hg, hb⟩ := objsInv_blocks hi
    refine ⟨blocksV_pairwise hb, fun a ha i hi' => ?_, fun o ho a ha => ?_, fun x v hx hv => ?_, fun hnone => ?_⟩
    · have e := blocksV_mem hb (show (a.1, a.2) ∈ _ from ha) i hi'
      rw [he, hg, Heap.add_b, Heap.add_b, e]; rfl
    · obtain ⟨i, hi', hoi⟩ := List.getElem_of_mem ho
      have hio : objs[i]? = some o := by rw [List.getElem?_eq_getElem hi', hoi]
      rw [objsInv_perm _ (perm_eraseIdx hio), objsInv] at hi
      obtain ⟨k1, k2, _, rfl, ⟨_, hk⟩, _⟩ := hi
      obtain ⟨ad, st, L, R⟩ := o
      obtain ⟨l1, l2, _, rfl, hl, _⟩ := hk
      cases st with
      | none =>
        have : L = [] := hl.1
        subst this
        simp at ha
      | some s =>
        have := ((t.sound sys hwf).live_good hl (List.mem_map_of_mem (f := blk) ha)).1
        exact ⟨this.1, this.2.1, this.2.2⟩
    · have e : hf.b x = some v := by rw [h1 x hx]; exact hv
      rw [he]
      rcases hd.1 x with e' | e' <;> simp_all
    · obtain ⟨q1, q2⟩ := objsInv_gone hi hnone
      refine ⟨fun x hx => ?_, fun x hx hx' => ?_⟩
      · rw [he, Heap.add_t, q1 x hx, h2]; rfl
      · have hx2 : ∀ o ∈ objs, ¬ (o.addr ≤ x ∧ x < o.addr + (t.denote sys).objSize) := fun o ho hox => by
          rw [t.objSize_eq] at hox
          exact hx ⟨o.addr, by rw [← ha]; exact List.mem_map_of_mem ho, hox⟩
        rw [he, Heap.add_b, q2 x hx2 hx', h1 x hx]; rfl

/-- **C60, `owns` after moves.** In such programs every object owns the addresses in the blocks the client holds of it (also those it got by
a move), and none in the blocks of the other objects. -/
theorem C60_owns_partial (sys : Sys) (t : AllocTy) (hwf : t.WF) (hmv : t.movable = true) (bs : List Nat) (w : World) (hp : Places w t.size bs)
    (ops : List MvOp) (has : (∃ i j, .moveTo i j ∈ ops) → t.assignable = true) (hops : MvSane t ops) (objs : List (MvObj (t.denote sys))) (w' : World)
    (hrun : mvplay sys (t.moves sys) bs ops w = .ok objs w')
    (owns : (t.denote sys).St → Nat → Bool) (ho : (t.denote sys).owns = some owns) (i j : Nat) (o p : MvObj (t.denote sys)) (s : (t.denote sys).St)
    (hi : objs[i]? = some o) (hs : o.st = some s) (hj : objs[j]? = some p) (a : Nat × List UInt8) (ha : a ∈ p.live) (x : Nat)
    (hx : a.1 ≤ x ∧ x < a.1 + a.2.length) : owns s x = decide (i = j) := by
  have hn : ∀ i n, .use i (.allocate n) ∈ ops → n < W64 ∧ t.fits sys.plat n := fun i n h =>
    ⟨by have := (hops i n h).2; omega, t.fits_of_margin sys.plat hwf n (hops i n h).1 (hops i n h).2⟩
  have := mvhistory sys t hwf hmv bs w hp ops has hn
  rw [hrun] at this
  obtain ⟨h, hf, hd, he, hI, h1, h2⟩ := this
  obtain ⟨b, st, L, R⟩ := o
  have hs : st = some s := hs
  subst hs
  by_cases hij : i = j
  · subst hij
    rw [hi] at hj
    obtain rfl := Option.some.inj hj
    rw [objsInv_perm _ (perm_eraseIdx hi), objsInv] at hI
    obtain ⟨k1, k2, _, rfl, ⟨_, hk⟩, _⟩ := hI
    obtain ⟨l1, l2, _, rfl, hl, _⟩ := hk
    rw [decide_eq_true (rfl : i = i)]
    exact (t.sound sys hwf).owns_complete owns ho hl ⟨blk a, List.mem_map_of_mem ha, hx⟩
  · obtain ⟨rest, q1, _⟩ := perm_two hij hi hj
    rw [objsInv_perm _ q1, objsInv, objsInv] at hI
    obtain ⟨k1, k2, dk, rfl, ⟨_, hk⟩, hk2⟩ := hI
    obtain ⟨m1, m2, dm, rfl, ⟨_, hm⟩, _⟩ := hk2
    obtain ⟨l1, l2, dl, rfl, hl, u1, u2, du, rfl, hu, _⟩ := hk
    obtain ⟨v1, v2, dv, rfl, hv, z1, z2, dz, rfl, hz, _⟩ := hm
    have hsome : (z1.b x).isSome = true := blocksV_isSome hz ⟨blk a, List.mem_map_of_mem ha, hx⟩
    have hgood : a.1 ≠ 0 := by
      cases hp' : p.st with
      | none =>
        rw [hp'] at hv
        have : p.live = [] := hv.1
        rw [this] at ha
        simp at ha
      | some s' =>
        rw [hp'] at hv
        exact ((t.sound sys hwf).live_good hv (List.mem_map_of_mem (f := blk) ha)).1.1
    rw [decide_eq_false hij]
    cases hc : owns s x with
    | false => rfl
    | true =>
      have hin : (((v1.add (z1.add z2)).add m2).b x).isSome = true := heap_left_isSome (heap_right_isSome (heap_left_isSome hsome))
      rcases (t.sound sys hwf).owns_sound owns ho hl (by omega) hc with h | h
      · exact (disj_isSome dk (heap_left_isSome h) hin).elim
      · exact (disj_isSome dk (heap_right_isSome (heap_left_isSome (blocksV_isSome hu h))) hin).elim

/-- **C60, linear.** Move assignment to a `linear_allocator` of which the client holds no block leaves it exactly as a new one, whatever
happened to it before. So does move construction (at any address). -/
theorem C60_linear_target_fresh_partial (sys : Sys) (Size b : Nat) (w : World) (hs : Storage w b (AllocTy.linear Size).size) (ops : List Op)
    (hops : Sane (.linear Size) ops) (c : Client (linear Size)) (w' : World) (hrun : play sys (linear Size) b ops w = .ok c w') (hempty : c.live = [])
    (src : (linear Size).St) :
    ∃ s, (linear Size).init b w' = .ok s w' ∧ (Moves.linear Size).assign c.st src w' = .ok (s, src) w' ∧
      ∀ a, ∃ s', (linear Size).init a w' = .ok s' w' ∧ (Moves.linear Size).ctor a src w' = .ok (s', src) w' := by
  have := history sys (.linear Size) trivial b w hs ops (hops.fits sys trivial)
  rw [show play sys ((AllocTy.linear Size).denote sys) b ops w = _ from hrun] at this
  obtain ⟨h, hf, hd, he, ⟨h1, h2, hd1, rfl, hI, _⟩, _⟩ := this
  rw [hempty] at hI
  have e : c.st = Linear.init b := Linear.Ok.fresh' hI.2.1
  refine ⟨Linear.init b, rfl, ?_, fun a => ⟨Linear.init a, rfl, rfl⟩⟩
  rw [e]; rfl

/-! ### What does not hold -/

/-- What a client of a `linear_allocator` that has served `ops` before and then was assigned from a new one sees of `ops'`. -/
def reusedLinear (Size : Nat) (ops ops' : List Op) : M (List Nat) := do
  let c ← play (demoSys .direct) (linear Size) 4096 ops
  let r ← (Moves.linear Size).assign c.st (Linear.init 8192)
  let c' ← Client.run (demoSys .direct) (A := linear Size) { st := r.1, live := [], foreign := [] } ops'
  pure c'.refused

/-- **C60 is false for `linear_allocator`**: the documentation only asks that the source has no allocations. If the target has one, assignment
resets the stack but not the counter of allocated bytes, so memory that is not returned in reverse order is lost for good: here a request
for 64 bytes is refused after everything has been returned, which a new `linear_allocator<64>` serves. -/
theorem C60_linear_false :
    ∃ ops', ((reusedLinear 64 [.allocate 16] ops' (demoWorld 128)).test fun refused _ => decide (refused = [64])) = true ∧
      ((play (demoSys .direct) (linear 64) 4096 ops' (demoWorld 128)).test fun c _ => decide (c.refused = [])) = true :=
  ⟨[.allocate 16, .allocate 16, .deallocate 1, .deallocate 0, .allocate 64], by decide +kernel, by decide +kernel⟩

/-- A `freelist<0, 16, linear_allocator<64>>` that served one block and got it back is moved; then the target is asked for a block. -/
def movedFreelist : M (Nat × Bool) := do
  let t : AllocTy := .freelist 0 16 (.linear 64)
  let A := t.denote (demoSys .direct)
  let s ← A.init 4096
  let r ← A.alloc s 16
  let s ← A.dealloc r.2 r.1 16
  let q ← (t.moves (demoSys .direct)).ctor 4224 s
  let r ← A.alloc q.1 16
  pure (r.1, A.ownsD r.2 r.1)

/-- **C60 is false for `freelist` over an allocator with its own memory**, even if the client has returned all blocks: the target hands out
memory inside the source object (which may be destroyed), and does not own it. Only an assertion (off by default) guards against it. -/
theorem C60_freelist_false : (movedFreelist (demoWorld 256)).test (fun r _ =>
    decide (4096 ≤ r.1 ∧ r.1 + 16 ≤ 4096 + (AllocTy.freelist 0 16 (.linear 64)).size) && !r.2) = true := by decide +kernel

/-- An `overflow<mallocator>` with one block is moved; the block is returned to the target; both are destroyed. -/
def movedOverflow : M Unit := do
  let t : AllocTy := .overflow .mallocator
  let A := t.denote (demoSys .direct)
  let s ← A.init 4096
  let r ← A.alloc s 16
  let q ← (t.moves (demoSys .direct)).ctor 4224 r.2
  let s ← A.dealloc q.1 r.1 16
  A.fini s
  A.fini q.2

/-- Moving an `overflow` allocator copies its counters: the moved-from object reports a leak that does not exist. -/
theorem C60_overflow_false_report : (movedOverflow (demoWorld 256)).test (fun _ w' => decide (w'.out = [Msg.leak 16])) = true := by decide +kernel

/-! ### Examples -/

/-- a type for the example: blocks move along -/
def demoMvTy : AllocTy := .freelist 0 32 (.cascading (.linear 64))

/-- blocks are allocated from one object, the object is moved twice, and the blocks are returned to the last one -/
def demoMvOps : List MvOp :=
  [.create 0, .create 1, .use 0 (.allocate 24), .use 0 (.allocate 8), .use 0 (.write 0 3 7), .moveNew 2 0, .moveTo 1 2, .use 1 (.deallocate 1), .use 0 (.allocate 16)]

example : demoMvTy.WF := by decide
example : demoMvTy.movable = true ∧ demoMvTy.assignable = true := by decide
example : MvSane demoMvTy demoMvOps := by
  intro i n h
  simp [demoMvOps] at h
  rcases h with ⟨_, rfl⟩ | ⟨_, rfl⟩ | ⟨_, rfl⟩ <;> decide
example : Places (demoWorld 96) demoMvTy.size [4096, 4128, 4160] :=
  ⟨by
    intro b hb
    simp at hb
    rcases hb with rfl | rfl | rfl <;> refine ⟨by decide, by decide, by decide, fun x h1 h2 => ?_⟩ <;>
      exact (demoStorage 96 (by decide)).2.2.2 x (by omega) (by have : demoMvTy.size = 32 := rfl; omega),
   by decide⟩
example : ((mvplay (demoSys .direct) (demoMvTy.moves (demoSys .direct)) [4096, 4128, 4160]
    [.create 0, .use 0 (.allocate 24), .use 0 (.allocate 8), .use 0 (.write 0 3 7), .moveNew 2 0, .use 2 (.deallocate 1), .use 0 (.allocate 16)] (demoWorld 96)).test
    fun objs _ => decide (objs.map (fun o => o.live.map (fun a => a.2.length)) = [[16], [], [8]])) = true := by decide +kernel

end KTL
