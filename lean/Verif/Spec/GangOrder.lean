import Verif.Spec.Gang
import Verif.Conc.GangOrder

/- Proof machinery for the order of accesses of threads over one `threaded` allocator. -/
namespace KTL
variable {X : BAlloc} {α : Type} {plat : Plat} {f : Nat → Prop} {I : X.IType} {b : Nat} {Q : Nat → α → Prop} {l : List Nat}

theorem GHB.append {tr : List GRec} {k m : Nat} (h : GHB tr k m) (tr' : List GRec) : GHB (tr ++ tr') k m := by
  have lift : ∀ {k : Nat} {r : GRec}, tr[k]? = some r → (tr ++ tr')[k]? = some r := fun {k r} h => by
    rw [List.getElem?_append_left (List.getElem?_eq_some_iff.1 h).1]; exact h
  induction h with
  | program hlt hk hl h => exact .program hlt (lift hk) (lift hl) h
  | mutex hlt hk hl h h' => exact .mutex hlt (lift hk) (lift hl) h h'
  | trans _ _ ih ih' => exact .trans ih ih'

/-- Step `k` happened before a step that satisfies `P`, or is one. Proof helper, not code. -/
def Known (tr : List GRec) (P : GRec → Prop) (k : Nat) : Prop := ∃ m r, tr[m]? = some r ∧ P r ∧ (k = m ∨ GHB tr k m)

theorem Known.append {tr : List GRec} {P : GRec → Prop} {k : Nat} (h : Known tr P k) (tr' : List GRec) : Known (tr ++ tr') P k := by
  obtain ⟨m, r, h1, h2, h3⟩ := h
  exact ⟨m, r, by rw [List.getElem?_append_left (List.getElem?_eq_some_iff.1 h1).1]; exact h1, h2, h3.imp_right (·.append tr')⟩

/-- The new step comes after. -/
theorem Known.next {tr : List GRec} {P : GRec → Prop} {k : Nat} (h : Known tr P k) (q : GRec)
    (hq : ∀ r, P r → r.thread = q.thread ∨ r.gives = true ∧ q.takes = true) : GHB (tr ++ [q]) k tr.length := by
  obtain ⟨m, r, h1, h2, h3⟩ := h
  have hm := (List.getElem?_eq_some_iff.1 h1).1
  have e1 : (tr ++ [q])[m]? = some r := by rw [List.getElem?_append_left hm]; exact h1
  have e2 : (tr ++ [q])[tr.length]? = some q := by simp
  have last : GHB (tr ++ [q]) m tr.length := by
    rcases hq r h2 with h | ⟨h, h'⟩
    · exact .program hm e1 e2 h
    · exact .mutex hm e1 e2 h h'
  rcases h3 with rfl | h3
  · exact last
  · exact (h3.append _).trans last

/-- Everybody knows the past of the bytes at hand: the thread that has them; of the others, the thread that holds the mutex, or else the
mutex. Proof helper, not code. -/
def Informed (tr : List GRec) (T : Gang X α) (R : Nat → List (Nat × List UInt8)) : Prop :=
  ∀ k r x, tr[k]? = some r → r.at x → (∀ j, Has R j x → Known tr (fun q => q.thread = j) k) ∧
    ((∀ j, ¬ Has R j x) → match T.inside with
      | some (j, _) => Known tr (fun q => q.thread = j) k
      | none => Known tr (fun q => q.gives = true) k)

/-- Nobody has the byte of another. -/
theorem GInvR.has_unique {T : Gang X α} {failed : Bool} {R : Nat → List (Nat × List UInt8)} {h : Heap} (hl : l.Nodup)
    (hG : GInvR plat f I b Q l failed R T h) {i j x : Nat} (hi : Has R i x) (hj : Has R j x) : i = j := by
  obtain ⟨fl, ho, hr, hS, hN, hin, hfl, hdo, rfl, hO, hB⟩ := hG
  have mem : ∀ i, Has R i x → i ∈ l := fun i hi => Classical.byContradiction fun hn => by
    unfold Has at hi
    rw [hN i hn] at hi; obtain ⟨_, hm, _⟩ := hi; cases hm
  refine Classical.byContradiction fun hij => ?_
  obtain ⟨rest, hr1, _, hr3⟩ := flatMap_split l hl i (mem i hi) R
  rw [blocksV_perm hr1, blocksV_append] at hB
  obtain ⟨a, d, hd', rfl, ha, hb⟩ := hB
  have tj' : inLive (rest.map blk) x := by
    obtain ⟨y, hy, hy'⟩ := id hj
    obtain ⟨z, hz, rfl⟩ := List.mem_map.1 hy
    exact ⟨_, List.mem_map.2 ⟨z, hr3 j (mem j hj) (Ne.symm hij) z hz, rfl⟩, hy'⟩
  exact disj_isSome hd' (blocksV_isSome ha hi) (blocksV_isSome hb tj')

theorem Body.access_touches {g : Bool} {β : Type} {h : Heap} {y : Body g β} {p n : Nat} {wr : Bool} (he : y.access h = some (p, n, wr)) {x : Nat}
    (h1 : p ≤ x) (h2 : x < p + n) : y.touches h x := by
  cases y with
  | load q k => cases he; show x = _; omega
  | store q v k => cases he; show x = _; omega
  | free hg q k =>
    have he : (if q = 0 then none else (h.t q).map fun n => (q, n, true)) = some (p, n, wr) := he
    by_cases hq : q = 0
    · rw [if_pos hq] at he; cases he
    · rw [if_neg hq] at he
      obtain ⟨n', hn, e⟩ := Option.map_eq_some_iff.1 he
      cases e
      exact ⟨hq, _, hn, h1, h2⟩
  | _ => cases he

/-- A step accesses bytes of the thread, or, under the mutex, bytes nobody has. -/
theorem GInvR.at_mine {T : Gang X α} {failed : Bool} {R : Nat → List (Nat × List UInt8)} {h hf : Heap}
    (hG : GInvR plat f I b Q l failed R T h) {i x : Nat} (hx : (T.record (h.add hf) i).at x) :
    (T.holds i = none ∧ Has R i x) ∨ (∃ c, T.holds i = some c ∧ c.over = none ∧ ∀ j, ¬ Has R j x) := by
  obtain ⟨fl, ho, hr, hS, hN, hin, hfl, hdo, rfl, hO, hB⟩ := hG
  obtain ⟨p, n, wr, he, h1, h2⟩ := hx
  cases hh : T.holds i with
  | none =>
    refine .inl ⟨rfl, ?_⟩
    have := hS i
    rw [Gang.rest_of_not hh] at this
    refine this.touch ?_
    unfold Gang.record at he
    rw [hh] at he
    simp only at he
    cases hT : T.threads i <;> rw [hT] at he <;> cases he <;> (show x = _; omega)
  | some c =>
    refine .inr ⟨c, rfl, ?_⟩
    unfold Gang.record at he
    rw [hh] at he
    simp only at he
    cases hov : c.over with
    | some r => rw [hov] at he; cases he
    | none =>
      rw [hov] at he
      refine ⟨rfl, fun j hj => ?_⟩
      have inho : (ho.b x).isSome = true := by
        unfold Gang.Own at hO
        rw [Gang.holds_self hh] at hO
        rw [Heap.add_assoc] at he
        cases c with
        | taking y k => obtain ⟨n, _, hs⟩ := hO; exact hs.touch (Body.access_touches he h1 h2)
        | giving y k => exact hO.2.touch (Body.access_touches he h1 h2)
      have hjl : j ∈ l := Classical.byContradiction fun hn => by
        unfold Has at hj
        rw [hN j hn] at hj; obtain ⟨_, hm, _⟩ := hj; cases hm
      obtain ⟨y, hy, hy'⟩ := hj
      obtain ⟨z, hz, rfl⟩ := List.mem_map.1 hy
      exact disj_isSome hdo inho (blocksV_isSome hB ⟨_, List.mem_map.2 ⟨z, List.mem_flatMap.2 ⟨j, hjl, hz⟩, rfl⟩, hy'⟩)

/-- What a step does to the mutex. -/
theorem Gang.step_mutex (sys : Sys) (T : Gang X α) (i : Nat) (w : World) (h : Heap) (T' : Gang X α) (w' : World)
    (hs : T.step sys i w = .ok T' w') :
    (∃ c, T.inside = some (i, c) ∧ c.over.isSome = true ∧ T'.inside = none ∧ (T.record h i).gives = true) ∨
    (∃ c c', T.inside = some (i, c) ∧ T'.inside = some (i, c')) ∨
    (T.holds i = none ∧ T'.inside = T.inside ∧ (T.record h i).takes = false) ∨
    (T.inside = none ∧ ∃ c, T'.inside = some (i, c) ∧ (T.record h i).takes = true) := by
  unfold Gang.step at hs
  unfold Gang.record
  cases hh : T.holds i with
  | some c =>
    have hins := Gang.holds_self hh
    simp only [hh] at hs ⊢
    cases hov : c.over with
    | some r =>
      simp only [hov] at hs ⊢
      cases hs
      exact .inl ⟨c, hins, by rw [hov]; rfl, rfl, trivial⟩
    | none =>
      simp only [hov] at hs ⊢
      rw [M.bind_apply] at hs
      cases e : c.step sys w with
      | ok c' w1 => rw [e] at hs; cases hs; exact .inr (.inl ⟨c, c', hins, rfl⟩)
      | oom w1 => rw [e] at hs; cases hs
      | ub => rw [e] at hs; cases hs
  | none =>
    simp only [hh] at hs ⊢
    refine .inr (.inr ?_)
    cases hT : T.threads i with
    | ret a => rw [hT] at hs; cases hs; exact .inl ⟨trivial, rfl, rfl⟩
    | stop => rw [hT] at hs; cases hs
    | ub => rw [hT] at hs; cases hs
    | load p k =>
      rw [hT] at hs
      simp only [M.bind_apply] at hs
      cases e : M.load p w with
      | ok v w1 => rw [e] at hs; cases hs; exact .inl ⟨trivial, rfl, rfl⟩
      | oom w1 => rw [e] at hs; cases hs
      | ub => rw [e] at hs; cases hs
    | store p v k =>
      rw [hT] at hs
      simp only [M.bind_apply] at hs
      cases e : M.store p v w with
      | ok v w1 => rw [e] at hs; cases hs; exact .inl ⟨trivial, rfl, rfl⟩
      | oom w1 => rw [e] at hs; cases hs
      | ub => rw [e] at hs; cases hs
    | alloc n k =>
      rw [hT] at hs
      simp only at hs
      cases hi : T.inside with
      | some c => rw [hi] at hs; cases hs; exact .inl ⟨trivial, hi, rfl⟩
      | none => rw [hi] at hs; cases hs; exact .inr ⟨rfl, _, rfl, rfl⟩
    | dealloc p n k =>
      rw [hT] at hs
      simp only at hs
      cases hi : T.inside with
      | some c => rw [hi] at hs; cases hs; exact .inl ⟨trivial, hi, rfl⟩
      | none => rw [hi] at hs; cases hs; exact .inr ⟨rfl, _, rfl, rfl⟩

theorem Gang.record_thread (T : Gang X α) (h : Heap) (i : Nat) : (T.record h i).thread = i := by
  unfold Gang.record
  split
  · split <;> rfl
  · split <;> rfl

theorem Gang.holds_of_inside {T : Gang X α} {i : Nat} {c : Visit X α} (h : T.inside = some (i, c)) : T.holds i = some c := by
  simp only [Gang.holds, h, if_true]

/-- the earlier accesses to the bytes of a step happen before it -/
theorem Informed.before {tr : List GRec} {T : Gang X α} {R : Nat → List (Nat × List UInt8)} (hK : Informed tr T R) {failed : Bool} {h hf : Heap}
    (hG : GInvR plat f I b Q l failed R T h) {i k x : Nat} {r : GRec} (hk : tr[k]? = some r) (hr : r.at x)
    (hx : (T.record (h.add hf) i).at x) : GHB (tr ++ [T.record (h.add hf) i]) k tr.length := by
  have key : Known tr (fun q => q.thread = i) k := by
    rcases hG.at_mine hx with ⟨_, hm⟩ | ⟨c, hc, _, hm⟩
    · exact (hK k r x hk hr).1 i hm
    · have := (hK k r x hk hr).2 hm
      rw [Gang.holds_self hc] at this
      exact this
  exact key.next _ fun q hq => .inl (by rw [Gang.record_thread]; exact hq)

/-- A step keeps everybody informed. -/
theorem Informed.step {tr : List GRec} {T T' : Gang X α} {R R' : Nat → List (Nat × List UInt8)} (hK : Informed tr T R) (hl : l.Nodup)
    {failed failed' : Bool} {h hf h' : Heap} (hG : GInvR plat f I b Q l failed R T h) (hG' : GInvR plat f I b Q l failed' R' T' h') (sys : Sys)
    (i : Nat) (w w' : World) (hs : T.step sys i w = .ok T' w') (hM : T.Moves T' i R R') : Informed (tr ++ [T.record (h.add hf) i]) T' R' := by
  have hin := Gang.step_mutex sys T i w (h.add hf) T' w' hs
  have hth := T.record_thread (h.add hf) i
  generalize hq : T.record (h.add hf) i = q at hin hth
  obtain ⟨m1, m2, m3⟩ := hM
  have elast : (tr ++ [q])[tr.length]? = some q := by simp
  intro k r x hk hr
  rcases Nat.lt_or_ge k tr.length with hlt | hge
  · -- an old step
    rw [List.getElem?_append_left hlt] at hk
    obtain ⟨o1, o2⟩ := hK k r x hk hr
    have mine : Known tr (fun q => q.thread = i) k → GHB (tr ++ [q]) k tr.length := fun hn => hn.next q fun r hr => .inl (by rw [hth]; exact hr)
    refine ⟨fun j hj => ?_, fun hno => ?_⟩
    · by_cases hji : j = i
      · subst hji
        rcases m2 x hj with ho | ⟨hh, _⟩
        · exact (o1 j ho).append _
        · obtain ⟨c, hc⟩ := Option.isSome_iff_exists.1 hh
          by_cases hR : Has R j x
          · exact (o1 j hR).append _
          · have hno : ∀ a, ¬ Has R a x := fun a ha => by
              by_cases e : a = j
              · exact hR (e ▸ ha)
              · have ha' : Has R' a x := by unfold Has; rw [m1 a e]; exact ha
                exact e (hG'.has_unique hl ha' hj)
            have := o2 hno
            rw [Gang.holds_self hc] at this
            exact this.append _
      · have : Has R j x := by unfold Has at hj ⊢; rw [m1 j hji] at hj; exact hj
        exact (o1 j this).append _
    · by_cases hR : Has R i x
      · rcases m3 x hR with h1 | ⟨_, h2⟩
        · exact (hno i h1).elim
        · obtain ⟨c, hc⟩ := Option.isSome_iff_exists.1 h2
          rw [Gang.holds_self hc]
          exact (o1 i hR).append _
      · have hno' : ∀ a, ¬ Has R a x := fun a ha => by
          by_cases e : a = i
          · exact hR (e ▸ ha)
          · refine hno a ?_
            unfold Has; rw [m1 a e]; exact ha
        have hk2 := o2 hno'
        rcases hin with ⟨c, e1, _, e2, e3⟩ | ⟨c, c', e1, e2⟩ | ⟨_, e1, _⟩ | ⟨e1, c, e2, e3⟩
        · rw [e1] at hk2; rw [e2]
          exact ⟨tr.length, q, elast, e3, .inr (mine hk2)⟩
        · rw [e1] at hk2; rw [e2]
          exact hk2.append _
        · rw [e1]
          cases hi : T.inside with
          | none => rw [hi] at hk2; exact hk2.append _
          | some jc => rw [hi] at hk2; exact Known.append hk2 _
        · rw [e1] at hk2; rw [e2]
          exact ⟨tr.length, q, elast, hth, .inr (Known.next hk2 q fun r hr => .inr ⟨hr, e3⟩)⟩
  · -- the new one
    have hk' : k = tr.length := by
      have := (List.getElem?_eq_some_iff.1 hk).1
      rw [List.length_append, List.length_singleton] at this
      omega
    subst hk'
    rw [elast] at hk
    cases hk
    have hself : Known (tr ++ [q]) (fun r => r.thread = i) tr.length := ⟨tr.length, q, elast, hth, .inl rfl⟩
    rw [← hq] at hr
    rcases hG.at_mine hr with ⟨hh, hm⟩ | ⟨c, hc, hov, hm⟩
    · refine ⟨fun j hj => ?_, fun hno => ?_⟩
      · by_cases hji : j = i
        · subst hji; exact hself
        · have : Has R j x := by unfold Has at hj ⊢; rw [m1 j hji] at hj; exact hj
          exact (hji (hG.has_unique hl this hm)).elim
      · rcases m3 x hm with h1 | ⟨_, h2⟩
        · exact (hno i h1).elim
        · obtain ⟨c, hc⟩ := Option.isSome_iff_exists.1 h2
          rw [Gang.holds_self hc]
          exact hself
    · have hins := Gang.holds_self hc
      have hins' : ∃ c', T'.inside = some (i, c') := by
        rcases hin with ⟨c1, e1, e4, e2, e3⟩ | ⟨c1, c', e1, e2⟩ | ⟨e0, e1, _⟩ | ⟨e1, c1, e2, e3⟩
        · rw [hins] at e1; cases e1
          rw [hov] at e4; cases e4
        · exact ⟨c', e2⟩
        · rw [hc] at e0; cases e0
        · rw [hins] at e1; cases e1
      obtain ⟨c', hc'⟩ := hins'
      refine ⟨fun j hj => ?_, fun hno => ?_⟩
      · by_cases hji : j = i
        · subst hji; exact hself
        · exact (hm j (by unfold Has at hj ⊢; rw [m1 j hji] at hj; exact hj)).elim
      · rw [hc']; exact hself

/-- The steps at the mutex are known to whoever holds it, or else to the mutex. Proof helper, not code. -/
def Handed (tr : List GRec) (T : Gang X α) : Prop :=
  ∀ k r, tr[k]? = some r → r.fields = true → match T.inside with
    | some (j, _) => Known tr (fun q => q.thread = j) k
    | none => Known tr (fun q => q.gives = true) k

theorem Gang.record_fields (T : Gang X α) (h : Heap) (i : Nat) (hf : (T.record h i).fields = true) :
    (∃ c, T.inside = some (i, c) ∧ (T.record h i).gives = true) ∨ (T.inside = none ∧ (T.record h i).takes = true) := by
  unfold Gang.record at hf ⊢
  cases hh : T.holds i with
  | some c =>
    simp only [hh] at hf ⊢
    cases hov : c.over with
    | some r => exact .inl ⟨c, Gang.holds_self hh, rfl⟩
    | none => simp [hov, GRec.fields] at hf
  | none =>
    simp only [hh] at hf ⊢
    cases hT : T.threads i <;> simp [hT, GRec.fields] at hf
    · exact .inr ⟨hf, by simp [hf]⟩
    · exact .inr ⟨hf, by simp [hf]⟩

theorem Handed.before {tr : List GRec} {T : Gang X α} (hK : Handed tr T) (h : Heap) {i k : Nat} {r : GRec} (hk : tr[k]? = some r)
    (hr : r.fields = true) (hx : (T.record h i).fields = true) : GHB (tr ++ [T.record h i]) k tr.length := by
  have := hK k r hk hr
  rcases T.record_fields h i hx with ⟨c, e, _⟩ | ⟨e, e'⟩
  · rw [e] at this
    exact Known.next this _ fun q hq => .inl (by rw [Gang.record_thread]; exact hq)
  · rw [e] at this
    exact Known.next this _ fun q hq => .inr ⟨hq, e'⟩

theorem Handed.step {tr : List GRec} {T T' : Gang X α} (hK : Handed tr T) (sys : Sys) (i : Nat) (w w' : World) (h : Heap)
    (hs : T.step sys i w = .ok T' w') : Handed (tr ++ [T.record h i]) T' := by
  have hin := Gang.step_mutex sys T i w h T' w' hs
  have hth := T.record_thread h i
  have hrf := T.record_fields h i
  generalize T.record h i = q at hin hth hrf
  have elast : (tr ++ [q])[tr.length]? = some q := by simp
  intro k r hk hr
  rcases Nat.lt_or_ge k tr.length with hlt | hge
  · rw [List.getElem?_append_left hlt] at hk
    have hk2 := hK k r hk hr
    rcases hin with ⟨c, e1, _, e2, e3⟩ | ⟨c, c', e1, e2⟩ | ⟨_, e1, _⟩ | ⟨e1, c, e2, e3⟩
    · rw [e1] at hk2; rw [e2]
      exact ⟨tr.length, q, elast, e3, .inr (Known.next hk2 q fun r hr => .inl (by rw [hth]; exact hr))⟩
    · rw [e1] at hk2; rw [e2]
      exact Known.append hk2 _
    · rw [e1]
      cases hi : T.inside with
      | none => rw [hi] at hk2; exact Known.append hk2 _
      | some jc => rw [hi] at hk2; exact Known.append hk2 _
    · rw [e1] at hk2; rw [e2]
      exact ⟨tr.length, q, elast, hth, .inr (Known.next hk2 q fun r hr => .inr ⟨hr, e3⟩)⟩
  · have hk' : k = tr.length := by
      have := (List.getElem?_eq_some_iff.1 hk).1
      rw [List.length_append, List.length_singleton] at this
      omega
    subst hk'
    rw [elast] at hk
    cases hk
    rcases hin with ⟨c, e1, _, e2, e3⟩ | ⟨c, c', e1, e2⟩ | ⟨e0, e1, e5⟩ | ⟨e1, c, e2, e3⟩
    · rw [e2]; exact ⟨tr.length, q, elast, e3, .inl rfl⟩
    · rw [e2]; exact ⟨tr.length, q, elast, hth, .inl rfl⟩
    · rcases hrf hr with ⟨c, e2, _⟩ | ⟨_, e2⟩
      · rw [Gang.holds_of_inside e2] at e0; cases e0
      · rw [e2] at e5; cases e5
    · rw [e2]; exact ⟨tr.length, q, elast, hth, .inl rfl⟩

/-- All accesses to one place are ordered. Proof helper, not code. -/
def GOrdered (tr : List GRec) : Prop := ∀ k m r q, k < m → tr[k]? = some r → tr[m]? = some q → r.Meets q → GHB tr k m

theorem gang_ordered (h : SoundAll plat X f I) (sys : Sys) (hsp : sys.plat = plat) (hl : l.Nodup) (sched : List Nat) (hs : ∀ i ∈ sched, i ∈ l)
    (T : Gang X α) (w : World) (hp hf : Heap) (hd : Heap.disj hp hf) (he : w.heap = hp.add hf) (R : Nat → List (Nat × List UInt8))
    (hG : GInvR plat f I b Q l w.failed R T hp) (tr : List GRec) (hK : Informed tr T R) (hH : Handed tr T) (hO : GOrdered tr) :
    GOrdered (tr ++ T.trace sys sched w) := by
  induction sched generalizing T w hp R tr with
  | nil => rw [show T.trace sys [] w = [] from rfl, List.append_nil]; exact hO
  | cons i is ih =>
    have hO' : GOrdered (tr ++ [T.record w.heap i]) := by
      intro k m r q hkm hk hm hr
      rcases Nat.lt_or_ge m tr.length with hlt | hge
      · rw [List.getElem?_append_left hlt] at hm
        rw [List.getElem?_append_left (by omega)] at hk
        exact (hO k m r q hkm hk hm hr).append _
      · have hm' : m = tr.length := by
          have := (List.getElem?_eq_some_iff.1 hm).1
          rw [List.length_append, List.length_singleton] at this
          omega
        subst hm'
        rw [List.getElem?_append_left hkm] at hk
        rw [show (tr ++ [T.record w.heap i])[tr.length]? = some (T.record w.heap i) by simp] at hm
        cases hm
        rcases hr with ⟨hr, hq⟩ | ⟨x, hr, hq⟩
        · exact hH.before _ hk hr hq
        · rw [he] at hq ⊢
          exact hK.before hG hk hr hq
    have h1 := gang_move h sys hsp hl T i (hs i List.mem_cons_self) w hp hf hd he R hG
    show GOrdered (tr ++ T.record w.heap i :: (match T.step sys i w with | .ok T' w' => T'.trace sys is w' | _ => []))
    rw [show tr ++ T.record w.heap i :: (match T.step sys i w with | .ok T' w' => T'.trace sys is w' | _ => []) =
      (tr ++ [T.record w.heap i]) ++ (match T.step sys i w with | .ok T' w' => T'.trace sys is w' | _ => []) by simp]
    cases e : T.step sys i w with
    | ok T' w' =>
      rw [e] at h1
      obtain ⟨⟨h', hd', he', R', hG', hM⟩, _⟩ := h1
      refine ih (fun j hj => hs j (List.mem_cons_of_mem _ hj)) T' w' h' hd' he' R' hG' _ ?_ (hH.step sys i w w' _ e) hO'
      rw [he]
      exact hK.step hl hG hG' sys i w w' e hM
    | oom w' => simpa using hO'
    | ub => simpa using hO'

theorem gang_trace (h : SoundAll plat X f I) (sys : Sys) (hsp : sys.plat = plat) (progs : Nat → Prog α) (hp : ∀ i, Safe f (Q i) (progs i) [])
    (sched : List Nat) (h1 : b ≠ 0) (h2 : b % 16 = 0) (h3 : b + X.objSize < W64) (w : World) (h0 hf : Heap) (hd : Heap.disj h0 hf)
    (he : w.heap = h0.add hf) (hb : bytes b X.objSize h0) : GOrdered (gangTrace X sys b progs sched w) := by
  obtain ⟨hA, rfl⟩ := id (h sys hsp)
  have hT : Triple (bytes b X.objSize) ((X.init b).seq sys) (fun s => hA.Inv b s []) := hA.init_spec b h1 h2 h3
  have hi := hT w h0 hf hd he hb
  have none : GOrdered [] := fun k m r q _ hk _ _ => by cases hk
  unfold gangTrace
  cases e : (X.init b).seq sys w with
  | ok s w' =>
    rw [e] at hi
    obtain ⟨⟨h', hd', he', hI⟩, hna⟩ := hi
    have hG : GInvR plat f hA.Inv b Q sched.dedup w'.failed (fun _ => []) ⟨s, progs, Option.none⟩ h' := by
      have : (sched.dedup.flatMap fun _ => ([] : List (Nat × List UInt8))) = [] := by simp
      refine ⟨false, h', Heap.empty, hp, fun _ _ => rfl, (fun _ _ h => by cases h), (fun h => by cases h), Heap.disj_empty _,
        (Heap.add_empty _).symm, ?_, ?_⟩
      · rw [this]; exact hI
      · rw [this]; rfl
    exact gang_ordered h sys hsp sched.nodup_dedup sched (fun i hi => List.mem_dedup.2 hi) ⟨s, progs, Option.none⟩ w' h' hf hd' he' _ hG []
      (fun k r x hk _ => by cases hk) (fun k r hk _ => by cases hk) none
  | oom w' => exact none
  | ub => exact none

end KTL
