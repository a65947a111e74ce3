import Verif.Props.Cmd
import Verif.Props.PsProgramOps

/-!
# C66: a program over power series with powers and the global cache
-/

namespace Obake

open AddMonoidAlgebra (single)

/-- The operations of power series with exponents without sign. -/
def psPowU : PowOps Nat Int Int (Trunc Nat) where
  cpow c e := match e with
    | some e => .ok (c ^ e.toNat)
    | none => .error .invalidArg
  zero := .ok 0
  one := .ok 1
  ceq a b := .ok (decide (a = b))
  thash _ := 0
  mul x y := psMul (pmOps Nat .u32) (intEnv Int) (intEnv Int) (intEnv Int) intMul intMul (seqExec (pmOps Nat .u32) (intEnv Int) intMul) (seqExec (pmOps Nat .u32) (intEnv Int) intMul) (exEnv 0) x y

theorem psPowU_spec : PsPowSpec (pmOps Nat .u32) (intEnv Int) intMul (fun mv => mv = exEnv 0) psPowU intVal (fun _ => False) where
  zero := ⟨trivial, rfl⟩
  one := ⟨trivial, rfl⟩
  cpow c n _ _ := ⟨trivial, by simp [intVal]⟩
  ceq a b _ _ := by simp [psPowU, Sat, intVal]
  mul x y := ⟨_, _, _, seqExec_isPar _ _ _, seqExec_isPar _ _ _, rfl, rfl⟩

/-- `auto [x0] = make_p_series_t<...>(3, "s"); x0 += 1; while (k < 3) { x1 = pow(x0, 4); if (k == 1) { clear_series_pow_map(); set_truncation(x0, 2); } k++; }`: in the first round the powers are computed, in the second one they are taken from the cache, in the third
one they are computed anew for the other truncation. -/
def psPowCmd : Cmd (PsAct Nat Nat Int Int Nat) Nat :=
  .seq (.act fun _ => .st (.plain (.make 0 (makePs (pmOps Nat .u32) (intEnv Int) (.ok 1) (.total 3) 7))))
    (.seq (.act fun _ => .st (.plain (.make 2 (fromScalar (pmOps Nat .u32) (intEnv Int) [] (.ok 1)))))
      (.seq (.act fun _ => .st (.addSub true 0 0 false 2 false))
        (.while (fun k => decide (k < 3)) (.seq (.act fun _ => .pow 1 0 4)
          (.seq (.ite (fun k => decide (k = 1)) (.seq (.act fun _ => .clearCache) (.act fun _ => .st (.setTr 0 (.ok 2)))) .skip) (.assign (· + 1)))))))

example : (match psRun (pmOps Nat .u32) (intEnv Int) psPowU 40 psPowCmd (fun _ => .moved, []) 0 with
    | .normal x k => some ((x.1 1).val?.map (fun s => (s.terms, s.tag)), x.2.length, k)
    | _ => none) = some (some ([(0, 1), (1, 4), (2, 6)], .total 2), 1, 3) := by decide +kernel

noncomputable def psPowPCmd : Cmd (PAct Nat (TPoly Int Nat) Nat × Option (Nat × Nat)) Nat :=
  .seq (.act fun _ => (.st (.make 0 (truncP (.total 3) (single (Finsupp.single 7 1) 1), .total 3)), none))
    (.seq (.act fun _ => (.st (.make 2 (single 0 1, .none)), none))
      (.seq (.act fun _ => (.st (.binary 0 0 false 2 false (psOp2 fun p q => p + q)), some (0, 2)))
        (.while (fun k => decide (k < 3)) (.seq (.act fun _ => (.st (.unary 1 0 false fun p => (truncP p.2 (p.1 ^ 4), p.2)), none))
          (.seq (.ite (fun k => decide (k = 1)) (.seq (.act fun _ => (.nop, none)) (.act fun _ => (.st (.update 0 fun p => (truncP (.total 2) p.1, .total 2)), none))) .skip) (.assign (· + 1)))))))

/-- The theorem applies to it. -/
example (n : Nat) : ∃ o ∈ psPowPCmd.outcomes (fun p => p.1.psOutcomes (SubsErr fun _ => False) p.2) n (fun _ => none) 0,
    (psRun (pmOps Nat .u32) (intEnv Int) psPowU n psPowCmd (fun _ => .moved, []) 0).Agrees (fun x A => PsRepresents (pmOps Nat .u32) intVal x.1 A) o :=
  C66_power_series (intEnv_spec Int) (pmLaws Nat .u32) intMul_spec (C46_part_safe_packed Nat Int .u32) (M := fun mv => mv = exEnv 0) (by rintro mv rfl e h; cases h) (C36_packed_unit Nat .u32) psPowU_spec [] (by simp) psPowCmd psPowPCmd
    (.seq (.act fun _ => .st (C63_generator (intEnv_spec Int) (pmLaws Nat .u32) (.ok 1) ⟨trivial, rfl⟩ (.total 3) trivial 7 0))
      (.seq (.act fun _ => .st (C63_constant (intEnv_spec Int) (pmLaws Nat .u32) [] List.Pairwise.nil (C36_packed_unit Nat .u32) (.ok 1) 1 ⟨trivial, rfl⟩ 2))
        (.seq (.act fun _ => .st (.add 0 0 false 2 false))
          (.while _ (.seq (.act fun _ => .pow 1 0 (by norm_num) (C63_packed_natural Nat .u32 rfl))
            (.seq (.ite _ (.seq (.act fun _ => .clearCache) (.act fun _ => .st (.setTr 0 (deg := .ok 2) (d := 2) rfl))) .skip) (.assign _)))))))
    (fun _ => .moved) (fun _ => none) ⟨fun _ => Or.inl rfl, by simp⟩ 0 n

end Obake
