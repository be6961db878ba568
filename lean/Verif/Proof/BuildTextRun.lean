import Verif.Proof.Blanks
import Verif.Proof.Drawn
import Verif.Props.VisualRuns
/-!
A thread that builds a layout goes through what the pure builder does.
-/
namespace RichText

/-! ### Environments that differ in their answers -/

section
variable {β φ : Type _}

theorem subFontLoop_shape {e : ShapeEnv β φ} {sh : φ → β → Nat → Nat → List HbGlyph} {v : β} {limit start : Nat}
    (h : ∀ i, start ≤ i → i < limit → sh (e.subFont v i limit).1 v i (e.subFont v i limit).2 =
      e.shape (e.subFont v i limit).1 v i (e.subFont v i limit).2) (n : Nat) :
    ∀ (offset : Nat) (s : Shaped φ), limit - offset = n → start ≤ offset →
      subFontLoop { e with shape := sh } v limit offset s = subFontLoop e v limit offset s := by
  induction n using Nat.strongRecOn with
  | _ n ih =>
    intro offset s hn hs
    conv => lhs; rw [subFontLoop]
    conv => rhs; rw [subFontLoop]
    by_cases hlt : offset < limit
    · rw [if_pos hlt, if_pos hlt]
      simp only
      by_cases hadv : offset < (e.subFont v offset limit).2
      · rw [if_pos hadv, if_pos hadv, ih _ (by omega) _ _ rfl (by omega)]
        unfold Shaped.addSubRun
        simp only
        rw [h offset hs hlt]
      · rw [if_neg hadv, if_neg hadv]
    · rw [if_neg hlt, if_neg hlt]

theorem subFontLoop_after {e : ShapeEnv β φ} {v : β} {limit : Nat} (n : Nat) : ∀ (offset : Nat) (s : Shaped φ) (r : Nat × Shaped φ),
    limit - offset = n → subFontLoop e v limit offset s = some r → offset ≤ r.1 := by
  induction n using Nat.strongRecOn with
  | _ n ih =>
    intro offset s r hn h
    rw [subFontLoop] at h
    split at h
    · split at h
      · have := ih _ (by omega) _ _ _ rfl h
        omega
      · cases h
    · cases h; exact Nat.le_refl _

theorem shapeCalls_shape {e : ShapeEnv β φ} {sh : φ → β → Nat → Nat → List HbGlyph} {start : Nat} : ∀ (cs : List (Nat × β)),
    (∀ limit v, (limit, v) ∈ cs → ∀ i, start ≤ i → i < limit → sh (e.subFont v i limit).1 v i (e.subFont v i limit).2 =
      e.shape (e.subFont v i limit).1 v i (e.subFont v i limit).2) →
    ∀ (offset : Nat) (s : Shaped φ), start ≤ offset →
      shapeCalls { e with shape := sh } cs offset s = shapeCalls e cs offset s := by
  intro cs
  induction cs with
  | nil => intro _ _ _ _; rfl
  | cons c cs ih =>
    intro h offset s hs
    obtain ⟨limit, v⟩ := c
    unfold shapeCalls
    rw [subFontLoop_shape (h limit v List.mem_cons_self) _ offset s rfl hs]
    split
    · rfl
    · rename_i r hr
      have := subFontLoop_after _ _ _ _ rfl hr
      exact ih (fun l w hm => h l w (List.mem_cons_of_mem _ hm)) _ _ (by omega)

theorem addRun_fonts {P : φ → Prop} {same : φ → φ → Bool} {s : Shaped φ} {f : φ} {n : Nat} (hf : P f) (h : ∀ r ∈ s.runs, P r.font) :
    ∀ r ∈ (s.addRun same f n).runs, P r.font := by
  unfold Shaped.addRun
  split
  · intro r hr
    rcases List.mem_append.1 hr with h1 | h1
    · exact h r h1
    · rw [List.mem_singleton] at h1; subst h1; exact hf
  · rename_i q hq
    split
    · intro r hr
      rcases List.mem_append.1 hr with h1 | h1
      · exact h r (List.dropLast_subset _ h1)
      · rw [List.mem_singleton] at h1; subst h1; exact h q (List.mem_of_getLast? hq)
    · intro r hr
      rcases List.mem_append.1 hr with h1 | h1
      · exact h r h1
      · rw [List.mem_singleton] at h1; subst h1; exact hf

theorem subFontLoop_fonts {P : φ → Prop} {e : ShapeEnv β φ} {v : β} {limit start : Nat}
    (h : ∀ i, start ≤ i → i < limit → P (e.subFont v i limit).1) (n : Nat) :
    ∀ (offset : Nat) (s : Shaped φ) (r : Nat × Shaped φ), limit - offset = n → start ≤ offset → (∀ q ∈ s.runs, P q.font) →
      subFontLoop e v limit offset s = some r → ∀ q ∈ r.2.runs, P q.font := by
  induction n using Nat.strongRecOn with
  | _ n ih =>
    intro offset s r hn hs hq hr
    rw [subFontLoop] at hr
    split at hr
    · rename_i hlt
      split at hr
      · exact ih (limit - (e.subFont v offset limit).2) (by omega) _ _ _ rfl (by omega)
          (fun q hm => by unfold Shaped.addSubRun at hm; exact addRun_fonts (h offset hs hlt) (by exact hq) q hm) hr
      · cases hr
    · cases hr; exact hq

theorem shapeCalls_fonts {P : φ → Prop} {e : ShapeEnv β φ} {start : Nat} : ∀ (cs : List (Nat × β)),
    (∀ limit v, (limit, v) ∈ cs → ∀ i, start ≤ i → i < limit → P (e.subFont v i limit).1) →
    ∀ (offset : Nat) (s : Shaped φ) (r : Nat × Shaped φ), start ≤ offset → (∀ q ∈ s.runs, P q.font) →
      shapeCalls e cs offset s = some r → ∀ q ∈ r.2.runs, P q.font := by
  intro cs
  induction cs with
  | nil => intro _ _ _ _ _ hq hr; cases hr; exact hq
  | cons c cs ih =>
    intro h offset s r hs hq hr
    obtain ⟨limit, v⟩ := c
    unfold shapeCalls at hr
    split at hr
    · cases hr
    · rename_i x hx
      have := subFontLoop_after _ _ _ _ rfl hx
      exact ih (fun l w hm => h l w (List.mem_cons_of_mem _ hm)) _ _ _ (by omega)
        (subFontLoop_fonts (h limit v List.mem_cons_self) _ _ _ _ rfl hs hq hx) hr

end

namespace BuildLibs
variable {b : BuildLibs} {starts : Bytes → Nat → Nat → Nat → Prop} {limit k : Nat}

/-! ### Threads -/

/-- What building keeps of a thread. -/
structure Goes (b : BuildLibs) (t t' : FontThread) : Prop where
  run : FontRun b.lib b.reg t'
  keeps : CacheKeeps t t'
  blanks : Blanks b.lib t → Blanks b.lib t'

theorem Goes.refl {t : FontThread} (h : FontRun b.lib b.reg t) : Goes b t t := ⟨h, .refl _, id⟩

theorem Goes.trans {t u w : FontThread} (h : Goes b t u) (h' : Goes b u w) : Goes b t w :=
  ⟨h'.run, h.keeps.trans h'.keeps, fun x => h'.blanks (h.blanks x)⟩

/-- The advances of blanks are those the thread remembers. -/
def Consistent (t : FontThread) (space : BitVec 16 → Int) : Prop := ∀ h o, t.cache.lookup h = some o → o.spaceAdvance = space h

theorem Consistent.before {t t' : FontThread} {space : BitVec 16 → Int} (h : Consistent t' space) (hk : CacheKeeps t t') :
    Consistent t space := by
  intro k o ho
  obtain ⟨o', h', e'⟩ := hk k o ho
  rw [← e']; exact h _ _ h'

/-- The advances of blanks are those of the files, at sizes above zero. -/
structure BlankOf (b : BuildLibs) (space : BitVec 16 → Int) : Prop where
  pos : ∀ h, 0 < space h
  eq : ∀ face file, b.reg.Loads b.lib face file → ∃ eff, 0 < eff ∧ space face.handle = b.lib.advance file eff (b.lib.spaceGlyph file)

theorem Proper.space (hp : b.Proper starts limit k) {t : FontThread} (ht : FontRun b.lib b.reg t) (hb : Blanks b.lib t) :
    ∃ space, Consistent t space ∧ BlankOf b space := by
  classical
  have owner : ∀ h o, t.cache.lookup h = some o → ∃ fd, b.reg.faces[h.toNat]? = some fd ∧ fd.file = some o.file ∧
      b.lib.newFace o.file = true ∧ b.lib.hbCreate o.file = true := fun h o ho => (ht.cache _ (lookup_mem ho)).loads
  refine ⟨fun h => match t.cache.lookup h with
    | some o => o.spaceAdvance
    | none => if hf : ∃ file, b.reg.Loads b.lib ⟨h, 0, .normal⟩ file then
        b.lib.advance hf.choose 1 (b.lib.spaceGlyph hf.choose) else 1, ?_, ?_, ?_⟩
  · intro h o ho
    simp only [ho]
  · intro h
    split
    · rename_i o ho
      obtain ⟨eff, h1, h2⟩ := hb h o ho
      rw [h2]
      exact hp.blank ⟨h, 0, .normal⟩ _ (owner h o ho) eff h1
    · split
      · rename_i hf
        exact hp.blank _ _ hf.choose_spec 1 (by omega)
      · decide
  · intro face file hl
    split
    · rename_i o ho
      obtain ⟨eff, h1, h2⟩ := hb _ o ho
      have : o.file = file := loads_unique (face := face) (owner _ o ho) hl
      exact ⟨eff, h1, by rw [h2, this]⟩
    · rw [dif_pos ⟨file, hl⟩]
      have hf : ∃ file, b.reg.Loads b.lib ⟨face.handle, 0, .normal⟩ file := ⟨file, hl⟩
      have := loads_unique (face := face) (b := file) (show b.reg.Loads b.lib face hf.choose from hf.choose_spec) hl
      exact ⟨1, by omega, by rw [this]⟩

/-- The font can be loaded at its size. -/
def FontGood (b : BuildLibs) (f : SingleScriptFont) : Prop :=
  ∃ file eff, b.reg.Loads b.lib f.face file ∧ f.request.effective = some eff ∧ 0 < eff

theorem readMetrics_spec {q : FontRequest} {file eff : Nat} (hl : b.reg.Loads b.lib q.face file) (he : q.effective = some eff)
    (hpos : 0 < eff) {t : FontThread} (ht : FontRun b.lib b.reg t) :
    ∃ t', b.readMetrics q t = some (t', b.fontMetrics file eff (q.subscript || q.superscript)) ∧ Goes b t t' := by
  have hlt : q.face.handle.toNat < b.reg.faces.length := by
    obtain ⟨fd, hfd, _⟩ := hl
    exact (List.getElem?_eq_some_iff.1 hfd).1
  obtain ⟨⟨t', res⟩, hg⟩ := getFontData_total (lib := b.lib) (t := t) (q := q) (by rw [he]; simp) hlt
  obtain ⟨_, g1, g2⟩ := getFontData_spec ht.cache hg
  cases res with
  | none => exact absurd hl (g2 rfl _)
  | some d =>
    obtain ⟨o, eff', k1, k2, k3, k4, k5, k6⟩ := g1 d rfl
    rw [he] at k1; cases k1
    have hfile : d.file = file := loads_unique k6 hl
    have hkey : d.key = q.face.handle := by rw [k4]; rfl
    refine ⟨t', ?_, .fontData ht hg, (getFontData_keeps hg).1, fun hb => getFontData_blanks hb (fun e h => ?_) hg⟩
    · unfold readMetrics
      rw [hg]
      simp only
      rw [hkey, k2]
      simp only
      rw [hfile, k5 hpos, k4]
      rfl
    · rw [he] at h; cases h; exact hpos

theorem metricsOf_good {f : SingleScriptFont} {file eff : Nat} (hl : b.reg.Loads b.lib f.face file)
    (he : f.request.effective = some eff) : b.metricsOf f = b.fontMetrics file eff (f.syntheticSubscript || f.syntheticSuperscript) := by
  obtain ⟨fd, h1, h2, _⟩ := hl
  unfold metricsOf
  rw [h1, he]
  simp only [Option.bind_some, h2]

theorem maxMetricsT_spec {runs : List (LogicalRun SingleScriptFont)} (hr : ∀ r ∈ runs, FontGood b r.font) :
    ∀ (ps : List VisualPiece) (t : FontThread) (m m' : Metrics), FontRun b.lib b.reg t → maxMetrics runs b.metricsOf ps m = some m' →
      ∃ t', b.maxMetricsT runs ps t m = some (t', m') ∧ Goes b t t' := by
  intro ps
  induction ps with
  | nil => intro t m m' ht h; cases h; exact ⟨t, rfl, .refl ht⟩
  | cons p ps ih =>
    intro t m m' ht h
    unfold maxMetrics at h
    unfold maxMetricsT
    split at h
    · cases h
    · rename_i r hrr
      obtain ⟨file, eff, h1, h2, h3⟩ := hr r (List.mem_of_getElem? hrr)
      obtain ⟨t1, k1, k2⟩ := readMetrics_spec (q := r.font.request) h1 h2 h3 ht
      rw [metricsOf_good h1 h2] at h
      obtain ⟨t2, j1, j2⟩ := ih t1 _ _ k2.run h
      refine ⟨t2, ?_, k2.trans j2⟩
      rw [hrr]
      simp only
      rw [k1]
      exact j1

theorem lineOpsT_spec {space : BitVec 16 → Int} {text : Bytes} {start length : Nat} {s : Shaped SingleScriptFont}
    (hr : ∀ r ∈ s.runs, FontGood b r.font) {l : BrokenLine} {t : FontThread} (ht : FontRun b.lib b.reg t)
    {x : List (LayoutOp SingleScriptFont) × List VisualPiece} (h : lineOps (b.env starts k space text start length) s l = some x) :
    ∃ t', b.lineOpsT text start length s l t = some (t', x) ∧ Goes b t t' := by
  unfold lineOps at h
  obtain ⟨ps, h1, h⟩ := Option.bind_eq_some_iff.1 h
  obtain ⟨ops, h2, h⟩ := Option.bind_eq_some_iff.1 h
  obtain ⟨m, h3, h⟩ := Option.map_eq_some_iff.1 h
  obtain ⟨t', k1, k2⟩ := maxMetricsT_spec hr ps t _ _ ht h3
  refine ⟨t', ?_, k2⟩
  unfold lineOpsT
  have h1' : linePieces s.runs (b.bidi text start length l.first l.stop) = some ps := h1
  have h2' : visualRuns s l.widths b.vertical ps 0 = some ops := h2
  rw [h1', Option.bind_some, h2', Option.bind_some, k1, Option.map_some, ← h]

theorem linesOpsT_spec {space : BitVec 16 → Int} {text : Bytes} {start length : Nat} {s : Shaped SingleScriptFont}
    (hr : ∀ r ∈ s.runs, FontGood b r.font) : ∀ (ls : List BrokenLine) (t : FontThread)
    (x : List (LayoutOp SingleScriptFont) × List VisualPiece), FontRun b.lib b.reg t →
    linesOps (b.env starts k space text start length) s ls = some x →
    ∃ t', b.linesOpsT text start length s ls t = some (t', x) ∧ Goes b t t' := by
  intro ls
  induction ls with
  | nil => intro t x ht h; cases h; exact ⟨t, rfl, .refl ht⟩
  | cons l ls ih =>
    intro t x ht h
    unfold linesOps at h
    split at h
    · rename_i y z hy hz
      cases h
      obtain ⟨t1, k1, k2⟩ := lineOpsT_spec hr ht hy
      obtain ⟨t2, j1, j2⟩ := ih t1 _ k2.run hz
      refine ⟨t2, ?_, k2.trans j2⟩
      unfold linesOpsT
      rw [k1]
      simp only
      rw [j1]
    · cases h

end BuildLibs

end RichText
