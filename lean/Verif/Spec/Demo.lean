import Verif.Spec.History

/- A concrete system and concrete storage, used only by the `example`s that show that the hypotheses of
the theorems can be met, and by counterexamples. -/
namespace KTL

/-- A malloc that hands out 64 KiB slots, as long as they are really free. -/
def demoSys (plat : Plat) : Sys where
  plat := plat
  malloc k h n :=
    let a := 0x100000 + k * 0x10000
    if n ≤ 0x10000 ∧ k < 0x10000 ∧ h.t a = none ∧ ∀ i, i < n → h.b (a + i) = none then some (a, fun _ => 0)
    else none
  valid := by
    intro k h n a c hm
    simp only at hm
    split at hm
    · rename_i hc
      simp only [Option.some.injEq, Prod.mk.injEq] at hm
      obtain ⟨rfl, _⟩ := hm
      refine ⟨by omega, ?_, by omega, hc.2.2.1, fun x h1 h2 => ?_⟩
      · cases plat <;> simp only [Plat.mallocAlign] <;> omega
      · have := hc.2.2.2 (x - (1048576 + k * 65536)) (by omega)
        rw [← this]; congr 1; omega
    · cases hm

/-- A world in which only the storage `[4096, 4096 + n)` is allocated. -/
def demoWorld (n : Nat) : World where
  heap := ⟨fun x => if 4096 ≤ x ∧ x < 4096 + n then some 0 else none, fun _ => none⟩

theorem demoStorage (n : Nat) (h : n < 2 ^ 62) : Storage (demoWorld n) 4096 n := by
  refine ⟨by omega, by omega, by omega, fun x h1 h2 => ?_⟩
  simp [demoWorld, h1, h2]

/-- A composition that uses most of the templates. -/
def demoTy : AllocTy :=
  .overflow (.fallback (.segragator 64 (.freelist 0 64 (.linear 1024)) (.threaded (.linear 512)))
    (.shared (.cascading (.fallback (.stack 256) (.reference (.linear 128))))))

/-- The outcome of a run is `ok` and the result satisfies the test. -/
def Res.test {α} (r : Res α) (f : α → World → Bool) : Bool :=
  match r with
  | .ok a w => f a w
  | _ => false

/-- The run has undefined behaviour. -/
def Res.isUB {α} (r : Res α) : Bool :=
  match r with
  | .ub => true
  | _ => false

end KTL
