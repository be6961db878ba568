import Verif.Proof.ValueRuns
namespace RichText
open Spec

namespace BoolRuns

theorem wordLimit_encode (v : Bool) (l : Int) (h0 : 0 ≤ l) (h1 : l < 2147483648) :
    wordLimit (encode v l) = l := by
  obtain ⟨n, rfl⟩ := Int.eq_ofNat_of_zero_le h0
  have hn : n < 2147483648 := by omega
  have key : encode v (n : Int) &&& maskValue = BitVec.ofNat 32 n := by
    apply BitVec.eq_of_getLsbD_eq
    intro i hi
    have hmask : maskValue.getLsbD i = decide (i < 31) := by
      have : ∀ i : Fin 32, maskValue.getLsbD i.1 = decide (i.1 < 31) := by decide
      exact this ⟨i, hi⟩
    rw [BitVec.getLsbD_and, hmask]
    unfold encode
    rw [BitVec.ofInt_natCast, BitVec.getLsbD_or]
    by_cases h31 : i < 31
    · simp [h31]
    · have : i = 31 := by omega
      subst this
      have : n.testBit 31 = false := Nat.testBit_lt_two_pow (by omega)
      rw [BitVec.getLsbD_ofNat, this]
      simp
  unfold wordLimit
  rw [key, BitVec.toInt_ofNat']
  rw [Int.bmod_def]
  omega

theorem wordValue_encode (v : Bool) (l : Int) (h0 : 0 ≤ l) (h1 : l < 2147483648) :
    wordValue (encode v l) = v := by
  obtain ⟨n, rfl⟩ := Int.eq_ofNat_of_zero_le h0
  have hn : n < 2147483648 := by omega
  have hb : (encode v (n : Int)).getLsbD 31 = v := by
    unfold encode
    rw [BitVec.ofInt_natCast, BitVec.getLsbD_or]
    have : n.testBit 31 = false := Nat.testBit_lt_two_pow (by omega)
    rw [BitVec.getLsbD_ofNat, this]
    cases v <;> decide
  have key : encode v (n : Int) >>> 31 = if v then 1#32 else 0#32 := by
    apply BitVec.eq_of_getLsbD_eq
    intro i hi
    rw [BitVec.getLsbD_ushiftRight]
    cases i with
    | zero => rw [Nat.add_zero, hb]; cases v <;> simp
    | succ i =>
      rw [BitVec.getLsbD_of_ge _ _ (by omega)]
      cases v <;> simp
  unfold wordValue
  rw [key]
  cases v <;> decide

theorem words_ofAdds (adds : List (Int × Bool)) :
    (ofAdds adds).words = adds.map fun p => encode p.2 p.1 := by
  have : ∀ (l : List (Int × Bool)) (r : BoolRuns),
      (l.foldl (fun r p => r.add p.1 p.2) r).words = r.words ++ l.map fun p => encode p.2 p.1 := by
    intro l
    induction l with
    | nil => intro r; simp
    | cons p t ih => intro r; rw [List.foldl_cons, ih]; simp [add]
  simpa [ofAdds] using this adds {}

theorem shows_ofAdds (adds : List (Int × Bool))
    (h : ∀ p ∈ adds, 0 ≤ p.1 ∧ p.1 < 2147483648) : (ofAdds adds).view.Shows adds := by
  refine ⟨by simp [view, words_ofAdds], ?_, ?_⟩
  · intro i
    simp only [view, words_ofAdds, List.getElem?_map]
    cases hp : adds[i]? with
    | none => rfl
    | some p =>
      have := h p (List.mem_of_getElem? hp)
      simp [wordLimit_encode _ _ this.1 this.2]
  · intro i
    simp only [view, words_ofAdds, List.getElem?_map]
    cases hp : adds[i]? with
    | none => rfl
    | some p =>
      have := h p (List.mem_of_getElem? hp)
      simp [wordValue_encode _ _ this.1 this.2]

end BoolRuns

theorem RunView.Shows.ext {α : Type _} {v w : RunView α} {runs}
    (hv : v.Shows runs) (hw : w.Shows runs) : v = w := by
  cases v with | mk c l x =>
  cases w with | mk c' l' x' =>
  have h1 := hv.count.trans hw.count.symm
  have h2 : l = l' := funext fun i => (hv.limit i).trans (hw.limit i).symm
  have h3 : x = x' := funext fun i => (hv.value i).trans (hw.value i).symm
  simp at h1
  subst h1 h2 h3
  rfl

end RichText
