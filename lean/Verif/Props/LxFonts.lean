import Verif.Model.LxFonts
import Mathlib.Data.List.Forall2
import Mathlib.Data.List.Nodup
import Mathlib.Data.List.Perm.Basic
/-!
C133: the font instances given to LayoutEx exist as long as they are used, and no longer than the call.
-/
namespace RichText

variable {φ ψ : Type}

namespace LxFonts

/-- Invariant: the pools own the instances in memory, each once. -/
structure Ok (s : LxFonts φ ψ) : Prop where
  owned : (s.multis.flatMap (·.pool)).Perm (s.singles.map (·.1))
  once : (s.singles.map (·.1)).Nodup
  old : ∀ a ∈ s.singles.map (·.1), a < s.fresh

theorem init_ok : (init : LxFonts φ ψ).Ok := ⟨by simp [init], by simp [init], by simp [init]⟩

theorem deletePool_append (s : LxFonts φ ψ) (as bs : List Nat) :
    s.deletePool (as ++ bs) = (s.deletePool as).bind fun s => s.deletePool bs := by
  induction as generalizing s with
  | nil => rfl
  | cons a as ih =>
    simp only [List.cons_append, deletePool]
    cases s.deleteSingle a with
    | none => rfl
    | some s => exact ih s

theorem deleteMultis_eq (s : LxFonts φ ψ) (ms : List (LxMulti φ)) : s.deleteMultis ms = s.deletePool (ms.flatMap (·.pool)) := by
  induction ms generalizing s with
  | nil => rfl
  | cons m ms ih =>
    rw [deleteMultis, List.flatMap_cons, deletePool_append]
    congr
    funext s
    exact ih s

theorem deletePool_eq : ∀ (as : List Nat) (s : LxFonts φ ψ), as.Nodup → (∀ a ∈ as, a ∈ s.singles.map (·.1)) →
    s.deletePool as = some { s with singles := s.singles.filter (·.1 ∉ as) }
  | [], s, _, _ => by simp [deletePool]
  | a :: as, s, hn, hm => by
    rw [List.nodup_cons] at hn
    have ha := hm a List.mem_cons_self
    have hany : s.singles.any (·.1 = a) = true := by
      obtain ⟨x, hx, rfl⟩ := List.mem_map.1 ha
      exact List.any_eq_true.2 ⟨x, hx, by simp⟩
    rw [deletePool, deleteSingle, if_pos hany, Option.bind_some, deletePool_eq as _ hn.2]
    · simp only [List.filter_filter]
      congr 2
      apply List.filter_congr
      intro x _
      simp only [List.mem_cons, not_or]
      by_cases h1 : x.1 = a <;> by_cases h2 : x.1 ∈ as <;> simp [h1, h2]
    · intro b hb
      obtain ⟨x, hx, rfl⟩ := List.mem_map.1 (hm b (List.mem_cons_of_mem _ hb))
      refine List.mem_map.2 ⟨x, List.mem_filter.2 ⟨hx, ?_⟩, rfl⟩
      have : x.1 ≠ a := fun h => hn.1 (h ▸ hb)
      simpa using this

theorem clear_eq {s : LxFonts φ ψ} (ho : s.Ok) : s.clear = some { s with multis := [], singles := [] } := by
  rw [clear, deleteMultis_eq, deletePool_eq]
  · simp only [Option.map_some]
    congr 2
    apply List.filter_eq_nil_iff.2
    intro x hx
    have := ho.owned.symm.subset (List.mem_map.2 ⟨x, hx, rfl⟩)
    simpa using this
  · exact ho.owned.nodup_iff.2 ho.once
  · intro a ha
    exact ho.owned.subset ha

/-- Within the capacity the vector keeps its block. -/
theorem emplace_fold : ∀ (fonts : List φ) (s : LxFonts φ ψ), s.multis.length + fonts.length ≤ s.capacity →
    fonts.foldl emplace s = { s with multis := s.multis ++ fonts.map (⟨·, []⟩) }
  | [], s, _ => by simp
  | f :: fonts, s, h => by
    rw [List.length_cons] at h
    have hne : ¬ s.multis.length = s.capacity := by omega
    have he : s.emplace f = { s with multis := s.multis ++ [⟨f, []⟩] } := by simp [emplace, hne]
    rw [List.foldl_cons, he, emplace_fold fonts _ (by simp; omega)]
    simp

theorem prepare_spec {s : LxFonts φ ψ} (ho : s.Ok) (fonts : List φ) : ∃ s' ptrs, s.prepare fonts = some (s', ptrs) ∧ s'.Ok ∧
    s'.multis = fonts.map (⟨·, []⟩) ∧ s'.singles = [] ∧ ∀ i < fonts.length, ptrs[i]? = some (s'.block, i) := by
  rw [prepare, clear_eq ho, Option.map_some]
  refine ⟨_, _, rfl, ?_⟩
  have hr : ∃ n b c, (reserve { s with multis := [], singles := [] } fonts.length : LxFonts φ ψ) = ⟨n, b, c, [], []⟩ ∧ fonts.length ≤ c := by
    unfold reserve grow
    split
    · exact ⟨_, _, _, rfl, Nat.le_refl _⟩
    · rename_i h
      refine ⟨_, _, _, rfl, ?_⟩
      exact Nat.le_of_not_lt h
  obtain ⟨n, b, c, hr, hc⟩ := hr
  rw [hr, emplace_fold _ _ (by simpa using hc)]
  refine ⟨⟨?_, by simp, by simp⟩, by simp, rfl, ?_⟩
  · simp [List.flatMap_map]
  · intro i hi
    simp [hi, pointer]

theorem flatMap_set_perm (ms : List (LxMulti φ)) (i : Nat) (m : LxMulti φ) (a : Nat) (h : ms[i]? = some m) :
    ((ms.set i { m with pool := m.pool ++ [a] }).flatMap (·.pool)).Perm (ms.flatMap (·.pool) ++ [a]) := by
  induction ms generalizing i with
  | nil => simp at h
  | cons x xs ih =>
    cases i with
    | zero =>
      simp only [List.getElem?_cons_zero, Option.some.injEq] at h
      subst h
      simp only [List.set_cons_zero, List.flatMap_cons, List.append_assoc]
      exact List.Perm.append_left _ List.perm_append_comm
    | succ i =>
      simp only [List.getElem?_cons_succ] at h
      simp only [List.set_cons_succ, List.flatMap_cons, List.append_assoc]
      exact List.Perm.append_left _ (ih i h)

theorem getSubFont_spec {s : LxFonts φ ψ} (ho : s.Ok) {i : Nat} {x : φ} (hx : (s.multis.map (·.font))[i]? = some x) (choose : φ → ψ) :
    ∃ s', s.getSubFont (s.block, i) choose = some (s', s.fresh) ∧ s'.Ok ∧ s'.block = s.block ∧
      s'.multis.map (·.font) = s.multis.map (·.font) ∧ s'.singles = s.singles ++ [(s.fresh, choose x)] := by
  rw [List.getElem?_map] at hx
  cases hm : s.multis[i]? with
  | none => rw [hm] at hx; cases hx
  | some m =>
    rw [hm] at hx
    simp only [Option.map_some, Option.some.injEq] at hx
    subst hx
    refine ⟨⟨s.fresh + 1, s.block, s.capacity, s.multis.set i { m with pool := m.pool ++ [s.fresh] },
      s.singles ++ [(s.fresh, choose m.font)]⟩, by simp [getSubFont, deref, hm], ⟨?_, ?_, ?_⟩, rfl, ?_, rfl⟩
    · simp only [List.map_append, List.map_cons, List.map_nil]
      exact (flatMap_set_perm _ _ _ _ hm).trans (ho.owned.append_right _)
    · simp only [List.map_append, List.map_cons, List.map_nil]
      rw [List.nodup_append]
      refine ⟨ho.once, by simp, ?_⟩
      intro a ha b hb
      have := ho.old a ha
      simp only [List.mem_singleton] at hb
      omega
    · intro a ha
      simp only [List.map_append, List.map_cons, List.map_nil, List.mem_append, List.mem_singleton] at ha
      show a < s.fresh + 1
      rcases ha with ha | ha
      · have := ho.old a ha
        omega
      · omega
    · simp only [List.map_set]
      apply List.ext_getElem?
      intro k
      rw [List.getElem?_set]
      split
      · rename_i h; subst h
        rw [List.getElem?_map, hm]
        split
        · rfl
        · rename_i hl
          simp at hl
          rw [List.getElem?_eq_none hl] at hm
          cases hm
      · rfl

theorem asks_spec (fonts : List φ) {ptrs : List (Nat × Nat)} : ∀ (l : Asks φ ψ) {s : LxFonts φ ψ}, s.Ok → s.multis.map (·.font) = fonts →
    (∀ i < fonts.length, ptrs[i]? = some (s.block, i)) → (∀ q ∈ l, q.1 < fonts.length) →
    ∃ s' new, s.asks ptrs l = some (s', new.map Prod.fst) ∧ s'.Ok ∧ s'.singles = s.singles ++ new ∧
      List.Forall₂ (fun q n => ∃ x, fonts[q.1]? = some x ∧ n.2 = q.2 x) l new
  | [], s, ho, _, _, _ => ⟨s, [], rfl, ho, by simp, .nil⟩
  | (i, choose) :: l, s, ho, hf, hp, hl => by
    have hi := hl _ List.mem_cons_self
    have hx := List.getElem?_eq_getElem hi
    obtain ⟨s', e, ho', hb', hf', hs'⟩ := getSubFont_spec ho (x := fonts[i]) (by rw [hf]; exact hx) choose
    obtain ⟨s2, new, e2, ho2, hs2, h2⟩ := asks_spec fonts l (s := s') ho' (by rw [hf', hf])
      (by rw [hb']; exact hp) (fun q hq => hl q (List.mem_cons_of_mem _ hq))
    refine ⟨s2, (s.fresh, choose fonts[i]) :: new, ?_, ho2, ?_, .cons ⟨_, hx, rfl⟩ h2⟩
    · rw [asks, hp i hi]
      simp [e, e2]
    · rw [hs2, hs']; simp

theorem mapM_getFont {s : LxFonts φ ψ} (hn : (s.singles.map (·.1)).Nodup) : ∀ (l : List (Nat × ψ)), (∀ x ∈ l, x ∈ s.singles) →
    (l.map Prod.fst).mapM s.getFont = some (l.map Prod.snd)
  | [], _ => rfl
  | x :: l, h => by
    have hx : s.getFont x.1 = some x.2 := by
      unfold getFont
      cases hf : s.singles.find? (·.1 = x.1) with
      | none =>
        have := List.find?_eq_none.1 hf x (h x List.mem_cons_self)
        simp at this
      | some y =>
        have hy := List.mem_of_find?_eq_some hf
        have he : y.1 = x.1 := by simpa using List.find?_some hf
        have := List.inj_on_of_nodup_map hn hy (h x List.mem_cons_self) he
        rw [this]
        rfl
    simp [List.mapM_cons, hx, mapM_getFont hn l (fun y hy => h y (List.mem_cons_of_mem _ hy))]

theorem paragraph_spec {s : LxFonts φ ψ} (ho : s.Ok) {fonts : List φ} {l : Asks φ ψ} (hl : ∀ q ∈ l, q.1 < fonts.length) :
    ∃ s' fs, s.paragraph fonts l = some (s', fs) ∧ s'.Ok ∧
      List.Forall₂ (fun q f => ∃ x, fonts[q.1]? = some x ∧ f = q.2 x) l fs := by
  obtain ⟨s1, ptrs, e1, ho1, hm1, hs1, hp1⟩ := prepare_spec ho fonts
  obtain ⟨s2, new, e2, ho2, hs2, h2⟩ := asks_spec fonts l ho1 (by rw [hm1]; simp [Function.comp_def]) hp1 hl
  rw [hs1, List.nil_append] at hs2
  refine ⟨s2, new.map Prod.snd, ?_, ho2, ?_⟩
  · rw [paragraph, e1]
    simp only [Option.bind_some]
    rw [e2]
    simp only [Option.bind_some]
    rw [mapM_getFont ho2.once new (by rw [hs2]; exact fun _ h => h)]
    rfl
  · rw [List.forall₂_map_right_iff]
    exact h2

theorem paragraphs_spec : ∀ (ps : List (List φ × Asks φ ψ)) {s : LxFonts φ ψ}, s.Ok → (∀ p ∈ ps, ∀ q ∈ p.2, q.1 < p.1.length) →
    ∃ s' fss, s.paragraphs ps = some (s', fss) ∧ s'.Ok ∧
      List.Forall₂ (fun p fs => List.Forall₂ (fun q f => ∃ x, p.1[q.1]? = some x ∧ f = q.2 x) p.2 fs) ps fss
  | [], s, ho, _ => ⟨s, [], rfl, ho, .nil⟩
  | (fonts, l) :: ps, s, ho, h => by
    obtain ⟨s1, fs, e1, ho1, h1⟩ := paragraph_spec ho (fonts := fonts) (l := l) (h _ List.mem_cons_self)
    obtain ⟨s2, fss, e2, ho2, h2⟩ := paragraphs_spec ps ho1 (fun p hp => h p (List.mem_cons_of_mem _ hp))
    refine ⟨s2, fs :: fss, ?_, ho2, .cons h1 h2⟩
    rw [paragraphs, e1]
    simp [e2]

end LxFonts

/-- C133.  Whatever fonts the paragraphs of a text have and whatever sub-fonts LayoutEx asks them for: every pointer it is given can be used
until the paragraph has been recorded and then leads to the font that was chosen, for each run that of the font the pointer was given for;
nothing is deleted twice and at the end nothing is left. -/
theorem C133_instances (ps : List (List φ × LxFonts.Asks φ ψ)) (h : ∀ p ∈ ps, ∀ q ∈ p.2, q.1 < p.1.length) :
    ∃ s fss, LxFonts.run ps = some (s, fss) ∧ s.singles = [] ∧ s.multis = [] ∧
      List.Forall₂ (fun p fs => List.Forall₂ (fun q f => ∃ x, p.1[q.1]? = some x ∧ f = q.2 x) p.2 fs) ps fss := by
  obtain ⟨s, fss, e, ho, h2⟩ := LxFonts.paragraphs_spec ps LxFonts.init_ok h
  exact ⟨{ s with multis := [], singles := [] }, fss, by simp [LxFonts.run, e, LxFonts.clear_eq ho], rfl, rfl, h2⟩

/-- C133, why room is reserved: a vector that has grown after a pointer was taken leaves this pointer of no use. -/
theorem C133_reserve {s : LxFonts φ ψ} {f : φ} (h : s.multis.length = s.capacity) (hb : s.block < s.fresh) (i : Nat) :
    (s.emplace f).deref (s.pointer i) = none := by
  have : ¬ s.block = s.fresh := by omega
  simp [LxFonts.emplace, h, LxFonts.grow, LxFonts.deref, LxFonts.pointer, this]

/-- Example: two paragraphs, of two and of three fonts; the first font of the first is asked twice. -/
def lxFontsDemo : List (List Nat × LxFonts.Asks Nat Nat) :=
  [([10, 20], [(0, (· + 1)), (1, (· + 2)), (0, (· + 3))]), ([30, 40, 50], [(2, (· + 4))])]

example : (LxFonts.run lxFontsDemo).map (·.2) = some [[11, 22, 13], [54]] := by decide +kernel

example : ∀ p ∈ lxFontsDemo, ∀ q ∈ p.2, q.1 < p.1.length := by
  intro p hp q hq
  simp only [lxFontsDemo, List.mem_cons, List.not_mem_nil, or_false] at hp
  rcases hp with rfl | rfl
  · simp only [List.mem_cons, List.not_mem_nil, or_false] at hq
    rcases hq with rfl | rfl | rfl <;> decide
  · simp only [List.mem_cons, List.not_mem_nil, or_false] at hq
    rcases hq with rfl
    decide

/-- Example: a pointer into a full vector. -/
example : ((⟨5, 3, 1, [⟨7, []⟩], []⟩ : LxFonts Nat Nat).emplace 8).deref (3, 0) = none := by decide +kernel

end RichText
