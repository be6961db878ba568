import Verif.Props.HbLifetime
import Verif.Model.FontTables
import Mathlib.Data.List.Forall2
import Mathlib.Data.List.Nodup
import Mathlib.Data.List.Perm.Basic
/-!
C132: what is read of font tables, and what stays of them in memory.
-/
namespace RichText

/-- FreeType reads the tables of a font: it knows their lengths, and what it reads is the table. -/
structure SfntReader.Reads (r : SfntReader) (table : Nat → Option (List Nat)) : Prop where
  length : ∀ tag, r.length tag = (table tag).map (·.length)
  read : ∀ tag n bytes, r.read tag n = some bytes → table tag = some bytes

/-- One call of the callback. -/
theorem faceReferenceTable_spec {r : SfntReader} {table : Nat → Option (List Nat)} (hr : r.Reads table) (mallocs : Nat → Bool)
    (mem : List Bool) (tag : Nat) : ∃ b m, faceReferenceTable r mallocs mem tag = some (b, m) ∧
      ((b = none ∧ (m = mem ∨ m = mem ++ [false]) ∧
          ∀ bytes, table tag = some bytes → mallocs bytes.length = true → r.read tag bytes.length = none) ∨
        ∃ bytes, b = some ⟨mem.length, bytes⟩ ∧ m = mem ++ [true] ∧ table tag = some bytes) := by
  unfold faceReferenceTable
  rw [hr.length]
  cases ht : table tag with
  | none => exact ⟨_, _, rfl, .inl ⟨rfl, .inl rfl, by simp⟩⟩
  | some bytes =>
    simp only [Option.map_some]
    by_cases hm : mallocs bytes.length = true
    · rw [if_pos hm]
      cases hd : r.read tag bytes.length with
      | none =>
        refine ⟨none, mem ++ [false], ?_, .inl ⟨rfl, .inr rfl, ?_⟩⟩
        · simp [freeBuffer]
        · intro b' e _
          cases e
          exact hd
      | some got =>
        have := hr.read _ _ _ hd
        rw [ht] at this
        cases this
        exact ⟨_, _, rfl, .inr ⟨bytes, rfl, rfl, rfl⟩⟩
    · rw [if_neg hm]
      refine ⟨_, _, rfl, .inl ⟨rfl, .inl rfl, ?_⟩⟩
      intro b' e h
      cases e
      exact absurd h hm

/-- The calls of the callback: memory only grows, and what is allocated behind `mem` belongs to the blobs. -/
theorem referenceTables_spec {r : SfntReader} {table : Nat → Option (List Nat)} (hr : r.Reads table) :
    ∀ (calls : List ((Nat → Bool) × Nat)) (mem : List Bool), ∃ bs more, referenceTables r mem calls = some (bs, mem ++ more) ∧
      (∀ b ∈ bs, ∃ c ∈ calls, table c.2 = some b.bytes) ∧
      (bs.map (·.buffer)).Pairwise (· < ·) ∧ (∀ k, k ∈ bs.map (·.buffer) ↔ mem.length ≤ k ∧ (mem ++ more)[k]? = some true) := by
  intro calls
  induction calls with
  | nil =>
    intro mem
    refine ⟨[], [], by simp [referenceTables], by simp, by simp, ?_⟩
    intro k
    simp only [List.map_nil, List.not_mem_nil, List.append_nil, false_iff, not_and]
    intro hk
    rw [List.getElem?_eq_none hk]
    simp
  | cons c calls ih =>
    intro mem
    obtain ⟨mallocs, tag⟩ := c
    obtain ⟨b, m, e, h⟩ := faceReferenceTable_spec hr mallocs mem tag
    rcases h with ⟨rfl, hm, -⟩ | ⟨bytes, rfl, rfl, ht⟩
    · obtain ⟨bs, more, e2, h1, h2, h3⟩ := ih m
      rcases hm with rfl | rfl
      · refine ⟨bs, more, ?_, ?_, h2, h3⟩
        · rw [referenceTables, e]; simp [e2]
        · intro b hb
          obtain ⟨c, hc, h⟩ := h1 b hb
          exact ⟨c, List.mem_cons_of_mem _ hc, h⟩
      · refine ⟨bs, false :: more, ?_, ?_, h2, ?_⟩
        · rw [referenceTables, e]; simp [e2]
        · intro b hb
          obtain ⟨c, hc, h⟩ := h1 b hb
          exact ⟨c, List.mem_cons_of_mem _ hc, h⟩
        · intro k
          rw [h3 k]
          simp only [List.append_assoc, List.singleton_append, List.length_append, List.length_singleton]
          constructor
          · rintro ⟨a, b⟩; exact ⟨by omega, b⟩
          · rintro ⟨a, b⟩
            refine ⟨?_, b⟩
            by_contra hc
            have hk : k = mem.length := by omega
            subst hk
            rw [List.getElem?_append_right (Nat.le_refl _)] at b
            simp at b
    · obtain ⟨bs, more, e2, h1, h2, h3⟩ := ih (mem ++ [true])
      refine ⟨⟨mem.length, bytes⟩ :: bs, true :: more, ?_, ?_, ?_, ?_⟩
      · rw [referenceTables, e]; simp [e2]
      · intro b hb
        rcases List.mem_cons.1 hb with rfl | hb
        · exact ⟨_, List.mem_cons_self, ht⟩
        · obtain ⟨c, hc, h⟩ := h1 b hb
          exact ⟨c, List.mem_cons_of_mem _ hc, h⟩
      · rw [List.map_cons, List.pairwise_cons]
        refine ⟨?_, h2⟩
        intro k hk
        have := ((h3 k).1 hk).1
        simp only [List.length_append, List.length_singleton] at this
        show mem.length < k
        omega
      · intro k
        rw [List.map_cons, List.mem_cons, h3 k]
        simp only [List.append_assoc, List.singleton_append, List.length_append, List.length_singleton]
        constructor
        · rintro (rfl | ⟨a, b⟩)
          · refine ⟨Nat.le_refl _, ?_⟩
            rw [List.getElem?_append_right (Nat.le_refl _)]
            simp
          · exact ⟨by omega, b⟩
        · rintro ⟨a, b⟩
          by_cases hk : k = mem.length
          · exact .inl hk
          · exact .inr ⟨by omega, b⟩

/-- Destroying blobs with buffers of their own. -/
theorem destroyBlobs_spec : ∀ (bs : List BufferBlob) (mem : List Bool), (bs.map (·.buffer)).Nodup →
    (∀ b ∈ bs, mem[b.buffer]? = some true) → ∃ m, destroyBlobs mem bs = some m ∧ m.length = mem.length ∧
      ∀ k, m[k]? = some true ↔ mem[k]? = some true ∧ k ∉ bs.map (·.buffer)
  | [], mem, _, _ => ⟨mem, rfl, rfl, by simp⟩
  | b :: bs, mem, hn, hl => by
    rw [List.map_cons, List.nodup_cons] at hn
    have hb := hl b List.mem_cons_self
    obtain ⟨m, e, hlen, hm⟩ := destroyBlobs_spec bs (mem.set b.buffer false) hn.2 (by
      intro b' hb'
      have hne : b.buffer ≠ b'.buffer := fun h => hn.1 (h ▸ List.mem_map.2 ⟨b', hb', rfl⟩)
      rw [List.getElem?_set_ne hne]
      exact hl b' (List.mem_cons_of_mem _ hb'))
    refine ⟨m, ?_, by simpa using hlen, ?_⟩
    · rw [destroyBlobs, BufferBlob.destroy, freeBuffer, if_pos hb]
      simpa using e
    · intro k
      rw [hm k, List.getElem?_set, List.map_cons, List.mem_cons]
      by_cases hk : b.buffer = k
      · subst hk
        simp
      · have hk' : ¬ k = b.buffer := fun h => hk h.symm
        simp [hk, hk']

/-- C132, the callback.  Whatever tables are asked for and whichever allocations and reads fail: no buffer is freed twice, each blob has the
bytes of a table asked for and a buffer of its own, what is allocated belongs to a blob, and when the blobs have been destroyed, in whatever
order, nothing is left. -/
theorem C132_callback {r : SfntReader} {table : Nat → Option (List Nat)} (hr : r.Reads table) (calls : List ((Nat → Bool) × Nat)) :
    ∃ bs mem, referenceTables r [] calls = some (bs, mem) ∧ (∀ b ∈ bs, ∃ c ∈ calls, table c.2 = some b.bytes) ∧
      (bs.map (·.buffer)).Nodup ∧ (∀ k, mem[k]? = some true ↔ ∃ b ∈ bs, b.buffer = k) ∧
      ∀ order, order.Perm bs → ∃ m, destroyBlobs mem order = some m ∧ ∀ k : Nat, m[k]? ≠ some true := by
  obtain ⟨bs, more, e, h1, h2, h3⟩ := referenceTables_spec hr calls []
  simp only [List.nil_append] at e h3
  have hn : (bs.map (·.buffer)).Nodup := h2.imp (fun h => Nat.ne_of_lt h)
  have hk : ∀ k, more[k]? = some true ↔ ∃ b ∈ bs, b.buffer = k := by
    intro k
    have := h3 k
    simp only [List.mem_map, List.length_nil, Nat.zero_le, true_and] at this
    exact this.symm
  refine ⟨bs, more, e, h1, hn, hk, ?_⟩
  intro order hp
  obtain ⟨m, e2, -, hm⟩ := destroyBlobs_spec order more ((hp.map _).nodup_iff.2 hn) (by
    intro b hb
    exact (hk _).2 ⟨b, hp.subset hb, rfl⟩)
  refine ⟨m, e2, ?_⟩
  intro k hc
  obtain ⟨ha, hb⟩ := (hm k).1 hc
  obtain ⟨b, hb1, hb2⟩ := (hk k).1 ha
  exact hb (List.mem_map.2 ⟨b, hp.symm.subset hb1, hb2⟩)

/-- C132, one call of the callback: no blob is given only when the font has no such table or memory or the read failed, else it has the bytes of
the table. -/
theorem C132_answer {r : SfntReader} {table : Nat → Option (List Nat)} (hr : r.Reads table) (mallocs : Nat → Bool) (mem : List Bool)
    (tag : Nat) : ∃ b m, faceReferenceTable r mallocs mem tag = some (b, m) ∧
      b.map (·.bytes) = (table tag).bind fun t => if mallocs t.length then r.read tag t.length else none := by
  obtain ⟨b, m, e, h⟩ := faceReferenceTable_spec hr mallocs mem tag
  refine ⟨b, m, e, ?_⟩
  unfold faceReferenceTable at e
  rw [hr.length] at e
  cases ht : table tag with
  | none => rw [ht] at e; simp at e; simp [← e.1]
  | some t =>
    rw [ht] at e
    simp only [Option.map_some, Option.bind_some] at e ⊢
    split at e
    · rename_i hm
      rw [if_pos hm]
      cases hd : r.read tag t.length with
      | none => rw [hd] at e; simp [freeBuffer] at e; simp [← e.1]
      | some bytes => rw [hd] at e; simp at e; simp [← e.1]
    · rename_i hm
      rw [if_neg hm]
      simp at e
      simp [← e.1]

/-- The bytes of a table in a file, cut off at its end. -/
def tableBytes (file : List Nat) (find : Nat → Option (Nat × Nat)) (tag : Nat) : List Nat :=
  match find tag with
  | none => []
  | some (start, length) => (file.drop start).take length

/-- The bytes behind an answer of `getFontTable`: none for a null pointer. -/
def answerBytes (file : List Nat) : Option Nat × Nat → List Nat
  | (none, _) => []
  | (some p, n) => (file.drop p).take n

namespace TableFont

/-- A font in use after `n` tables were found: so many references more. -/
def after (bs : List SubBlob) : TableFont := ⟨{ HbObj.live with blob := 1 + bs.length }, bs⟩

theorem after_usable (bs : List SubBlob) : (after bs).obj.usable = true := by
  have : 0 < 1 + bs.length := by omega
  simp [after, HbObj.usable, HbObj.live, this]

/-- One call. -/
theorem getFontTable_after (file : List Nat) (find : Nat → Option (Nat × Nat)) (bs : List SubBlob) (tag : Nat) :
    (tableBytes file find tag = [] ∧ (after bs).getFontTable file.length find tag = some (after bs, none, 0)) ∨
    ∃ p n, 0 < n ∧ p + n ≤ file.length ∧ (file.drop p).take n = tableBytes file find tag ∧
      (after bs).getFontTable file.length find tag = some (after (bs ++ [⟨1, p, n⟩]), some p, n) := by
  unfold getFontTable referenceTable tableBytes
  rw [if_pos (after_usable bs)]
  cases hf : find tag with
  | none => exact .inl ⟨rfl, rfl⟩
  | some pl =>
    obtain ⟨p, l⟩ := pl
    dsimp only
    by_cases hc : l = 0 ∨ file.length ≤ p
    · rw [if_pos hc]
      refine .inl ⟨?_, rfl⟩
      rcases hc with rfl | h
      · simp
      · rw [List.drop_eq_nil_of_le h]; simp
    · rw [if_neg hc]
      refine .inr ⟨p, min l (file.length - p), by omega, by omega, ?_, ?_⟩
      · rw [List.take_eq_take_iff, List.length_drop]
        omega
      · simp only [after, List.length_append, List.length_singleton]
        rfl

theorem getFontTables_after (file : List Nat) (find : Nat → Option (Nat × Nat)) : ∀ (tags : List Nat) (bs : List SubBlob),
    ∃ new rs, getFontTables file.length find (after bs) tags = some (after (bs ++ new), rs) ∧
      List.Forall₂ (fun tag r => answerBytes file r = tableBytes file find tag ∧ r.2 = (tableBytes file find tag).length ∧
        (r.1 = none ↔ tableBytes file find tag = [])) tags rs ∧
      (∀ r ∈ rs, ∀ p, r.1 = some p → (⟨1, p, r.2⟩ : SubBlob) ∈ new) ∧ (∀ b ∈ new, b.refs = 1) ∧
      new.length = (tags.filter fun tag => tableBytes file find tag ≠ []).length
  | [], bs => ⟨[], [], by simp [getFontTables], .nil, by simp, by simp, by simp⟩
  | tag :: tags, bs => by
    rcases getFontTable_after file find bs tag with ⟨ht, e⟩ | ⟨p, n, hn, hp, ht, e⟩
    · obtain ⟨new, rs, e2, h1, h2, h3, h4⟩ := getFontTables_after file find tags bs
      refine ⟨new, (none, 0) :: rs, ?_, .cons ⟨by simp [answerBytes, ht], by simp [ht], by simp [ht]⟩ h1, ?_, h3, ?_⟩
      · rw [getFontTables, e]; simp [e2]
      · intro r hr q hq
        rcases List.mem_cons.1 hr with rfl | hr
        · simp at hq
        · exact h2 r hr q hq
      · rw [h4]; simp [ht]
    · obtain ⟨new, rs, e2, h1, h2, h3, h4⟩ := getFontTables_after file find tags (bs ++ [⟨1, p, n⟩])
      have hlen : (tableBytes file find tag).length = n := by
        rw [← ht, List.length_take, List.length_drop]; omega
      have hne : tableBytes file find tag ≠ [] := by
        intro h; rw [h] at hlen; simp at hlen; omega
      refine ⟨⟨1, p, n⟩ :: new, (some p, n) :: rs, ?_,
        .cons ⟨ht, hlen.symm, by simp [hne]⟩ h1, ?_, ?_, ?_⟩
      · rw [getFontTables, e]; simp [e2]
      · intro r hr q hq
        rcases List.mem_cons.1 hr with rfl | hr
        · simp only [Option.some.injEq] at hq
          subst hq
          exact List.mem_cons_self
        · exact List.mem_cons_of_mem _ (h2 r hr q hq)
      · intro b hb
        rcases List.mem_cons.1 hb with rfl | hb
        · rfl
        · exact h3 b hb
      · rw [List.length_cons, h4]; simp [hne]

end TableFont

/-- C132 (partial: nothing is given back).  Whatever tables LayoutEx asks a font for: the answers are the bytes of these tables in the file and
their lengths, a null pointer and zero for one without bytes; and at the end each pointer given out still has a blob that keeps it. -/
theorem C132_pointer_partial (file : List Nat) (find : Nat → Option (Nat × Nat)) (tags : List Nat) :
    ∃ f rs, TableFont.getFontTables file.length find ⟨.live, []⟩ tags = some (f, rs) ∧ f.obj.usable = true ∧
      List.Forall₂ (fun tag r => answerBytes file r = tableBytes file find tag ∧ r.2 = (tableBytes file find tag).length ∧
        (r.1 = none ↔ tableBytes file find tag = [])) tags rs ∧
      ∀ r ∈ rs, ∀ p, r.1 = some p → ∃ b ∈ f.tables, 0 < b.refs ∧ b.start = p ∧ b.length = r.2 := by
  obtain ⟨new, rs, e, h1, h2, h3, -⟩ := TableFont.getFontTables_after file find tags []
  refine ⟨_, rs, e, TableFont.after_usable _, h1, ?_⟩
  intro r hr p hp
  exact ⟨_, h2 r hr p hp, Nat.one_pos, rfl, rfl⟩

/-- C132 is violated: every table found leaves a blob, and the file's blob stays with it even if the font and its face are both destroyed. -/
theorem C132_leak_violated (file : List Nat) (find : Nat → Option (Nat × Nat)) (tags : List Nat) :
    ∃ f rs o, TableFont.getFontTables file.length find ⟨.live, []⟩ tags = some (f, rs) ∧
      f.obj.fontDestroy.bind HbObj.faceDestroy = some o ∧ o.font = 0 ∧ o.face = 0 ∧
      o.blob = (tags.filter fun tag => tableBytes file find tag ≠ []).length ∧
      (f.tables.filter fun b => 0 < b.refs).length = (tags.filter fun tag => tableBytes file find tag ≠ []).length := by
  obtain ⟨new, rs, e, h1, h2, h3, h4⟩ := TableFont.getFontTables_after file find tags []
  refine ⟨_, rs, ⟨true, new.length, 0, 0, false⟩, e, ?_, rfl, rfl, h4, ?_⟩
  · simp [TableFont.after, HbObj.live, HbObj.fontDestroy, HbObj.implDelete, HbObj.faceDestroy, HbObj.blobDestroy]
  · simp only [TableFont.after, List.nil_append]
    rw [List.filter_eq_self.2, h4]
    intro b hb
    rw [h3 b hb]
    rfl

theorem TableFont.destroyTables_spec : ∀ (ns : List Nat) (o : HbObj) (bs : List SubBlob), ns.Nodup →
    (∀ n ∈ ns, ∃ b, bs[n]? = some b ∧ b.refs = 1) → ns.length < o.blob →
    ∃ bs', destroyTables ⟨o, bs⟩ ns = some ⟨{ o with blob := o.blob - ns.length }, bs'⟩ ∧
      ∀ n, bs'[n]? = if n ∈ ns then (bs[n]?).map (fun b => { b with refs := 0 }) else bs[n]?
  | [], o, bs, _, _, _ => ⟨bs, by simp [destroyTables], by simp⟩
  | n :: ns, o, bs, hn, hb, hl => by
    rw [List.nodup_cons] at hn
    rw [List.length_cons] at hl
    obtain ⟨b, hb1, hb2⟩ := hb n List.mem_cons_self
    obtain ⟨bs', e, h⟩ := destroyTables_spec ns { o with blob := o.blob - 1 } (bs.set n { b with refs := 0 }) hn.2 (by
      intro k hk
      have hne : n ≠ k := fun h => hn.1 (h ▸ hk)
      rw [List.getElem?_set_ne hne]
      exact hb k (List.mem_cons_of_mem _ hk)) (by show ns.length < o.blob - 1; omega)
    refine ⟨bs', ?_, ?_⟩
    · rw [destroyTables, destroyTable]
      have h0 : ¬ o.blob = 0 := by omega
      simp only [hb1, Option.bind_some, hb2, HbObj.blobDestroy, if_neg h0, Option.map_some]
      simp only [Nat.one_ne_zero, if_false, if_true, Option.bind_some, e, List.length_cons]
      congr 3
      omega
    · intro k
      rw [h k, List.getElem?_set]
      by_cases hk : n = k
      · subst hk
        have hlt : n < bs.length := by
          by_contra hc
          rw [List.getElem?_eq_none (by omega)] at hb1
          cases hb1
        rw [if_neg hn.1, if_pos List.mem_cons_self, if_pos rfl, if_pos hlt, hb1]
        rfl
      · have : k ∈ n :: ns ↔ k ∈ ns := by
          rw [List.mem_cons]
          exact ⟨fun h => h.resolve_left (fun e => hk e.symm), .inr⟩
        simp only [if_neg hk, this]

/-- C132, the missing call: had each table that was found been destroyed once, in whatever order, the font would be as before the calls and no blob
of a table left. -/
theorem C132_release (file : List Nat) (find : Nat → Option (Nat × Nat)) (tags : List Nat) :
    ∃ f rs, TableFont.getFontTables file.length find ⟨.live, []⟩ tags = some (f, rs) ∧
      ∀ order, order.Perm (List.range f.tables.length) → ∃ bs, f.destroyTables order = some ⟨.live, bs⟩ ∧ ∀ b ∈ bs, b.refs = 0 := by
  obtain ⟨new, rs, e, h1, h2, h3, h4⟩ := TableFont.getFontTables_after file find tags []
  refine ⟨_, rs, e, ?_⟩
  simp only [TableFont.after, List.nil_append]
  intro order hp
  have hlen : order.length = new.length := by simpa using hp.length_eq
  obtain ⟨bs, e2, h⟩ := TableFont.destroyTables_spec order { HbObj.live with blob := 1 + new.length } new
    (hp.nodup_iff.2 List.nodup_range) (by
      intro n hn
      have : n < new.length := by simpa using hp.subset hn
      exact ⟨_, List.getElem?_eq_getElem this, h3 _ (List.getElem_mem this)⟩) (by show order.length < 1 + new.length; omega)
  refine ⟨bs, ?_, ?_⟩
  · rw [e2, hlen]
    have : 1 + new.length - new.length = 1 := by omega
    simp only [this]
    rfl
  · intro b hb
    obtain ⟨n, hn, rfl⟩ := List.getElem_of_mem hb
    have hg := h n
    rw [List.getElem?_eq_getElem hn] at hg
    split at hg
    · cases hc : new[n]? with
      | none => rw [hc] at hg; cases hg
      | some b => rw [hc] at hg; simp only [Option.map_some, Option.some.injEq] at hg; rw [hg]
    · rename_i hni
      have : n < new.length := by
        by_contra hc
        rw [List.getElem?_eq_none (by omega)] at hg
        cases hg
      exact absurd (hp.symm.subset (List.mem_range.2 this)) hni

/-- A reader for examples: table 7 has three bytes, table 8 four but reading it fails. -/
def sfntDemo : SfntReader where
  length tag := if tag = 7 then some 3 else if tag = 8 then some 4 else none
  read tag _ := if tag = 7 then some [1, 2, 3] else none

theorem sfntDemo_reads : sfntDemo.Reads fun tag => if tag = 7 then some [1, 2, 3] else if tag = 8 then some [9, 9, 9, 9] else none where
  length tag := by
    unfold sfntDemo
    dsimp only
    split
    · rfl
    · split <;> rfl
  read tag n bytes h := by
    unfold sfntDemo at h
    dsimp only at h
    split at h
    · rename_i h7
      rw [if_pos h7]
      exact h
    · cases h

/-- Example: a table, a read that fails, a table the font does not have, an allocation that fails, the table again. -/
example : referenceTables sfntDemo [] [(fun _ => true, 7), (fun _ => true, 8), (fun _ => true, 9), (fun _ => false, 7), (fun _ => true, 7)] =
    some ([⟨0, [1, 2, 3]⟩, ⟨2, [1, 2, 3]⟩], [true, false, true]) := by decide +kernel

/-- Example: of four calls two find bytes; the second of these is cut off at the end of the file. -/
example : TableFont.getFontTables 6 (fun tag => if tag = 1 then some (2, 3) else if tag = 2 then some (4, 9) else if tag = 3 then some (6, 1) else none)
    ⟨.live, []⟩ [1, 3, 2, 4] = some (⟨⟨true, 3, 2, 1, true⟩, [⟨1, 2, 3⟩, ⟨1, 4, 2⟩]⟩, [(some 2, 3), (none, 0), (some 4, 2), (none, 0)]) := by
  decide +kernel

end RichText
