import Verif.Proof.FamilyJson
import Verif.Props.FontRegistry
/-!
Font families described in JSON (`src/font_registry_json.cpp`): C84.

Documents, ICU's script names and the libraries are arbitrary.
-/
namespace RichText

/-! ### A concrete case -/

/-- ICU knows two of four scripts by name. -/
def demoScriptOf (s : String) : ScriptCode :=
  if s = "Latn" then .code 1 else if s = "Cyrl" then .code 2 else if s = "ja" then .failure else .nothing

/-- A face. -/
def demoFaceJson (name uri : String) (weight : Int) (style : String) : Json :=
  .obj [("uri", .str uri), ("name", .str name), ("style", .str style), ("weight", .int weight)]

/-- A family with some scripts. -/
def demoFamilyJson (scripts : List Json) : Option Json :=
  some (.obj [("name", .str "Serif"), ("fallback_families", .arr [.str "CJK"]), ("scripts", .arr scripts), ("comment", .null),
    ("faces", .arr [demoFaceJson "Serif-Bold" "bold.ttf" 700 "italic", demoFaceJson "Serif" "sans.ttf" 400 "normal"])])

/-! ### C84 -/

/-- Strictly ascending lists with the same elements are equal. -/
theorem sorted_ext {a b : List Int} (ha : a.Pairwise (· < ·)) (hb : b.Pairwise (· < ·)) (h : ∀ c, c ∈ a ↔ c ∈ b) : a = b := by
  induction a generalizing b with
  | nil =>
    cases b with
    | nil => rfl
    | cons y ys => exact absurd ((h y).2 (List.mem_cons_self ..)) (List.not_mem_nil)
  | cons x xs ih =>
    cases b with
    | nil => exact absurd ((h x).1 (List.mem_cons_self ..)) (List.not_mem_nil)
    | cons y ys =>
      rw [List.pairwise_cons] at ha hb
      have hxy : x = y := by
        rcases List.mem_cons.1 ((h x).1 (List.mem_cons_self ..)) with e | e
        · exact e
        · rcases List.mem_cons.1 ((h y).2 (List.mem_cons_self ..)) with e' | e'
          · exact e'.symm
          · have := hb.1 x e
            have := ha.1 y e'
            omega
      subst hxy
      congr 1
      refine ih ha.2 hb.2 fun c => ?_
      constructor
      · intro hc
        rcases List.mem_cons.1 ((h c).1 (List.mem_cons_of_mem _ hc)) with e | e
        · have := ha.1 c hc
          omega
        · exact e
      · intro hc
        rcases List.mem_cons.1 ((h c).2 (List.mem_cons_of_mem _ hc)) with e | e
        · have := hb.1 c hc
          omega
        · exact e

/-- C84.  A document is accepted exactly if it describes a family, and then the
family registered is the one described. -/
theorem C84_accepted_iff (limit : Nat) (hl : limit ≤ 2 ^ 63) (scriptOf : String → ScriptCode) (doc : Option Json) (info : FamilyInfo) :
    jsonFamily limit scriptOf doc = some (some info) ↔ Describes limit scriptOf doc info := by
  constructor
  · intro h
    unfold jsonFamily at h
    split at h
    · cases h
    rename_i root hroot
    split at h
    · cases h
    rename_i name hname
    split at h
    · cases h
    · cases h
    rename_i codes hcodes
    split at h
    · cases h
    rename_i linked hlinked
    split at h
    · cases h
    rename_i fallback hfallback
    split at h
    · cases h
    rename_i vs hvs
    split at h
    · cases h
    rename_i faces hfaces
    cases h
    refine ⟨root, getObj_eq.1 hroot, getStr_eq.1 hname, ?_, (jsonFamilies_eq _ _ _).1 hlinked, (jsonFamilies_eq _ _ _).1 hfallback,
      vs, faces, getArr_eq.1 hvs, (jsonFaces_eq _ _).1 hfaces, ?_⟩
    · unfold jsonScriptCodes at hcodes
      split at hcodes
      · rename_i hn
        cases hcodes
        exact .inr ⟨getArr_none.1 hn, rfl⟩
      · rename_i ws hws
        cases hj : jsonScripts scriptOf ws (List.replicate limit false) with
        | none => rw [hj] at hcodes; cases hcodes
        | some b =>
          cases b with
          | none => rw [hj] at hcodes; cases hcodes
          | some bits =>
            rw [hj] at hcodes
            cases hcodes
            obtain ⟨b1, b2, b3⟩ := (jsonScripts_some hl ws (List.replicate limit false) (List.length_replicate ..)).1 bits hj
            refine .inl ⟨ws, getArr_eq.1 hws, b2, fun c => ?_, setCodes_sorted bits⟩
            rw [mem_setCodes, b3]
            have hrep : ¬ (List.replicate limit false)[c.toNat]? = some true := by
              rw [List.getElem?_replicate]; split <;> simp
            constructor
            · rintro ⟨c0, h1 | ⟨v, hv, h1⟩⟩
              · exact absurd h1 hrep
              · refine ⟨v, hv, ?_⟩
                rw [show c = ((c.toNat : Nat) : Int) by omega]
                exact h1
            · rintro ⟨v, hv, h1⟩
              have h0 : 0 ≤ c := by
                obtain ⟨d, d0, _, d2⟩ := b2 v hv
                rcases h1 with h1 | ⟨s, h1, h1'⟩ <;> rcases d2 with d2 | ⟨s', d2, d2'⟩
                · rw [h1] at d2; cases d2; exact d0
                · rw [h1] at d2; cases d2
                · rw [h1] at d2; cases d2
                · rw [h1] at d2; cases d2; rw [h1'] at d2'; cases d2'; exact d0
              refine ⟨h0, .inr ⟨v, hv, ?_⟩⟩
              rw [show ((c.toNat : Nat) : Int) = c by omega]
              exact h1
    · by_cases hf : faces = []
      · exact .inl ⟨hf, by simp [hf]⟩
      · exact .inr ⟨hf, by simp [hf]⟩
  · rintro ⟨fs, rfl, hname, hscripts, hlinked, hfallback, vs, faces, hvs, hfaces, hinfo⟩
    obtain ⟨name, codes, linked, fallback, facesOpt⟩ := info
    simp only at hname hscripts hlinked hfallback hinfo
    unfold jsonFamily
    simp only [Json.getObj]
    rw [show Json.getStr (Json.field fs "name") = some name from getStr_eq.2 hname]
    simp only
    have hsc : jsonScriptCodes limit scriptOf fs = some (some codes) := by
      unfold jsonScriptCodes
      rcases hscripts with ⟨ws, h1, h2, h3, h4⟩ | ⟨h1, rfl⟩
      · rw [show Json.getArr (Json.field fs "scripts") = some ws from getArr_eq.2 h1]
        obtain ⟨j1, j2⟩ := jsonScripts_some hl (scriptOf := scriptOf) ws (List.replicate limit false) (List.length_replicate ..)
        obtain ⟨bits, hb⟩ := j2 h2
        obtain ⟨b1, _, b3⟩ := j1 bits hb
        simp only [hb, Option.map_some, Option.some.injEq]
        refine sorted_ext (setCodes_sorted bits) h4 fun c => ?_
        rw [mem_setCodes, b3, h3]
        have hrep : ¬ (List.replicate limit false)[c.toNat]? = some true := by
          rw [List.getElem?_replicate]; split <;> simp
        constructor
        · rintro ⟨c0, h1 | ⟨v, hv, h1⟩⟩
          · exact absurd h1 hrep
          · refine ⟨v, hv, ?_⟩
            rw [show c = ((c.toNat : Nat) : Int) by omega]
            exact h1
        · rintro ⟨v, hv, h1⟩
          have h0 : 0 ≤ c := by
            obtain ⟨d, d0, _, d2⟩ := h2 v hv
            rcases h1 with h1 | ⟨s, h1, h1'⟩ <;> rcases d2 with d2 | ⟨s', d2, d2'⟩
            · rw [h1] at d2; cases d2; exact d0
            · rw [h1] at d2; cases d2
            · rw [h1] at d2; cases d2
            · rw [h1] at d2; cases d2; rw [h1'] at d2'; cases d2'; exact d0
          refine ⟨h0, .inr ⟨v, hv, ?_⟩⟩
          rw [show ((c.toNat : Nat) : Int) = c by omega]
          exact h1
      · rw [show Json.getArr (Json.field fs "scripts") = none from getArr_none.2 h1]
    rw [hsc]
    simp only
    rw [(jsonFamilies_eq _ _ _).2 hlinked]
    simp only
    rw [(jsonFamilies_eq _ _ _).2 hfallback]
    simp only
    rw [show Json.getArr (Json.field fs "faces") = some vs from getArr_eq.2 hvs]
    simp only
    rw [(jsonFaces_eq _ _).2 hfaces]
    simp only [Option.some.injEq, FamilyInfo.mk.injEq, true_and]
    rcases hinfo with ⟨h1, h2⟩ | ⟨h1, h2⟩
    · rw [if_pos h1, h2]
    · rw [if_neg h1, h2]

/-- Full claim: every document is either registered or rejected.  Violated twice:
a negative number passes the check on script numbers and throws when it is used
as an index, and for a name ICU does not know an uninitialised variable is
used. -/
theorem C84_defined_violated :
    (¬ ∀ (doc : Option Json) (scriptOf : String → ScriptCode), (∀ s, ∃ c : Int, 0 ≤ c ∧ c < 4 ∧ scriptOf s = .code c) →
      ∃ x, jsonFamily 4 scriptOf doc = some x) ∧
    ¬ ∀ (doc : Option Json) (scriptOf : String → ScriptCode), (∀ fs vs v n, doc = some (.obj fs) → fs.lookup "scripts" = some (.arr vs) →
      v ∈ vs → v = .int n → 0 ≤ n) → ∃ x, jsonFamily 4 scriptOf doc = some x := by
  constructor
  · intro h
    obtain ⟨x, hx⟩ := h (demoFamilyJson [.int (-1)]) (fun _ => .code 1) fun _ => ⟨1, by decide, by decide, rfl⟩
    have : (jsonFamily 4 (fun _ => .code 1) (demoFamilyJson [.int (-1)])).isNone = true := by decide +kernel
    rw [hx] at this
    cases this
  · intro h
    obtain ⟨x, hx⟩ := h (demoFamilyJson [.str "Lattin"]) demoScriptOf (by
      intro fs vs v n h1 h2 h3 h4
      unfold demoFamilyJson at h1
      cases h1
      have : vs = [.str "Lattin"] := by
        have e : List.lookup "scripts" _ = some (Json.arr vs) := h2
        simpa [List.lookup] using e.symm
      subst this
      rw [List.mem_singleton] at h3
      rw [h3] at h4
      cases h4)
    have : (jsonFamily 4 demoScriptOf (demoFamilyJson [.str "Lattin"])).isNone = true := by decide +kernel
    rw [hx] at this
    cases this

/-- C84, the part of this that holds: if all script numbers are at least 0 and ICU
has an answer for all script names, every document is registered or rejected,
and the registry is left alone if it is rejected. -/
theorem C84_defined_partial (lib : FontLib) (hl : lib.codeLimit ≤ 2 ^ 63) (scriptOf : String → ScriptCode) (doc : Option Json)
    (hs : SaneScripts lib.codeLimit scriptOf doc) (r : Registry) (h0 : r.Reached lib) (hf : r.Fits) :
    (∃ info r' e, Describes lib.codeLimit scriptOf doc info ∧ r.registerJson lib scriptOf doc = some (r', e) ∧
      r.register lib info = some (r', e)) ∨
    (¬ ∃ info, Describes lib.codeLimit scriptOf doc info) ∧ r.registerJson lib scriptOf doc = some (r, .invalidJson) := by
  have hdef : ∃ x, jsonFamily lib.codeLimit scriptOf doc = some x := by
    unfold jsonFamily
    cases hroot : Json.getObj doc with
    | none => exact ⟨_, rfl⟩
    | some root =>
      simp only
      cases hname : Json.getStr (Json.field root "name") with
      | none => exact ⟨_, rfl⟩
      | some name =>
        simp only
        have hx : ∃ x, jsonScriptCodes lib.codeLimit scriptOf root = some x := by
          unfold jsonScriptCodes
          cases ha : Json.getArr (Json.field root "scripts") with
          | none => exact ⟨_, rfl⟩
          | some ws =>
            obtain ⟨x, hx⟩ := jsonScripts_defined ws (List.replicate lib.codeLimit false)
              (by rw [List.length_replicate]; exact hs root ws (getObj_eq.1 hroot) (getArr_eq.1 ha))
            simp only [hx]
            exact ⟨_, rfl⟩
        obtain ⟨x, hx⟩ := hx
        rw [hx]
        cases x with
        | none => exact ⟨_, rfl⟩
        | some codes =>
          simp only
          repeat' split
          all_goals exact ⟨_, rfl⟩
  obtain ⟨x, hx⟩ := hdef
  cases x with
  | none =>
    right
    refine ⟨?_, by unfold Registry.registerJson; rw [hx]⟩
    rintro ⟨info, hd⟩
    rw [(C84_accepted_iff _ hl _ _ _).2 hd] at hx
    cases hx
  | some info =>
    left
    have hd := (C84_accepted_iff _ hl _ _ _).1 hx
    have hreg : ∃ r' e, r.register lib info = some (r', e) := by
      obtain ⟨fs, _, _, hsc, _, _, vs, faces, _, hfaces, hinfo⟩ := hd
      have hb : ∃ bits, Registry.scriptBits info.scripts (List.replicate lib.codeLimit false) = some bits := by
        have hr : ∀ c ∈ info.scripts, 0 ≤ c ∧ c < lib.codeLimit := by
          intro c hc
          rcases hsc with ⟨ws, _, h2, h3, _⟩ | ⟨_, h1⟩
          · obtain ⟨v, hv, h1⟩ := (h3 c).1 hc
            obtain ⟨d, d0, d1, d2⟩ := h2 v hv
            rcases h1 with h1 | ⟨s, h1, h1'⟩ <;> rcases d2 with d2 | ⟨s', d2, d2'⟩
            · rw [h1] at d2; cases d2; exact ⟨d0, d1⟩
            · rw [h1] at d2; cases d2
            · rw [h1] at d2; cases d2
            · rw [h1] at d2; cases d2; rw [h1'] at d2'; cases d2'; exact ⟨d0, d1⟩
          · rw [h1] at hc; cases hc
        unfold Registry.scriptBits
        split
        · exact ⟨_, rfl⟩
        · generalize info.scripts = codes at hr
          have : ∀ (codes : List Int) (b : List Bool), b.length = lib.codeLimit → (∀ c ∈ codes, 0 ≤ c ∧ c < lib.codeLimit) →
              ∃ b', Registry.setScripts codes b = some b' := by
            intro codes
            induction codes with
            | nil => intro b _ _; exact ⟨b, rfl⟩
            | cons c cs ih =>
              intro b hb h
              obtain ⟨c0, c1⟩ := h c (List.mem_cons_self ..)
              unfold Registry.setScripts
              rw [if_pos ⟨c0, by omega⟩]
              exact ih _ (by rw [List.length_set]; exact hb) fun d hd => h d (List.mem_cons_of_mem _ hd)
          exact this codes _ (List.length_replicate ..) hr
      obtain ⟨bits, hb⟩ := hb
      refine register_total (h0.inv hf) hb ?_
      intro is his i hi
      rcases hinfo with ⟨_, h1⟩ | ⟨_, h1⟩
      · rw [h1] at his; cases his
      · rw [h1] at his
        cases his
        have : ∀ (vs : List Json) (fs : List FaceInfo), List.Forall₂ DescribesFace vs fs → ∀ i ∈ fs, i.weight.toNat < 9 := by
          intro vs fs h
          induction h with
          | nil => intro i hi; cases hi
          | cons h1 _ ih =>
            intro i hi
            rcases List.mem_cons.1 hi with rfl | hi
            · exact h1.weight
            · exact ih i hi
        exact this _ _ hfaces i hi
    obtain ⟨r', e, hre⟩ := hreg
    refine ⟨info, r', e, hd, ?_, hre⟩
    unfold Registry.registerJson
    rw [hx]
    exact hre

/-- The registry after registering the demo family without scripts. -/
def demoSerifReg : Registry :=
  ((Registry.init.registerJson demoLib demoScriptOf (demoFamilyJson [])).map fun x => x.1).getD Registry.init

/-- Full claim: a family registered from a document with a list of scripts is used
for exactly those.  Violated by the empty list, which means all. -/
theorem C84_scripts_violated : ¬ ∀ (lib : FontLib) (scriptOf : String → ScriptCode) (doc : Option Json) (info : FamilyInfo)
    (r r' : Registry) (v : FamilyView) (fs : List (String × Json)) (vs : List Json), lib.codeLimit ≤ 2 ^ 63 → r.Reached lib → r'.Fits →
    Describes lib.codeLimit scriptOf doc info → r.registerJson lib scriptOf doc = some (r', .none) → r'.view info.name = some v →
    doc = some (.obj fs) → fs.lookup "scripts" = some (.arr vs) →
    ∀ c : Nat, v.scripts[c]? = some true ↔ ∃ x ∈ vs, MeansScript scriptOf x c := by
  intro h
  have hx : ∃ info, jsonFamily 4 demoScriptOf (demoFamilyJson []) = some (some info) ∧
      ∃ r', Registry.init.registerJson demoLib demoScriptOf (demoFamilyJson []) = some (r', .none) ∧
        (r'.familyNames.length = 2 ∧ r'.faceNames.length = 2) ∧ ∃ v, r'.view info.name = some v ∧ v.scripts[0]? = some true :=
    ⟨((jsonFamily 4 demoScriptOf (demoFamilyJson [])).bind id).getD demoCjk, by decide +kernel,
      demoSerifReg, by decide +kernel,
      by decide +kernel, (demoSerifReg.view "Serif").getD ⟨[], [], [], []⟩, by decide +kernel, by decide +kernel⟩
  obtain ⟨info, h1, r', h2, h3, v, h4, h5⟩ := hx
  have hd := (C84_accepted_iff 4 (by decide) demoScriptOf _ info).1 h1
  obtain ⟨x, hx, _⟩ := (h demoLib demoScriptOf (demoFamilyJson []) info .init r' v _ [] (by decide) (.refl _)
    (by unfold Registry.Fits; omega) hd h2 h4 rfl rfl 0).1 h5
  cases hx

/-- C84, together with the registry: a family registered from a document has the
linked and fallback families it lists, and the scripts it lists; all if it lists
none.  (Its faces are those of C41.)  Missing from the full claim: lists that are
empty. -/
theorem C84_registered_partial (lib : FontLib) (hl : lib.codeLimit ≤ 2 ^ 63) (scriptOf : String → ScriptCode) (doc : Option Json)
    (r r' : Registry) (h0 : r.Reached lib) (hf : r'.Fits) (h : r.registerJson lib scriptOf doc = some (r', .none)) :
    ∃ info v, Describes lib.codeLimit scriptOf doc info ∧ r'.view info.name = some v ∧ v.linked = info.linked.map some ∧
      v.fallback = info.fallback.map some ∧ v.scripts.length = lib.codeLimit ∧
      ∀ c : Nat, v.scripts[c]? = some true ↔ c < lib.codeLimit ∧ (info.scripts = [] ∨ (c : Int) ∈ info.scripts) := by
  unfold Registry.registerJson at h
  split at h
  · cases h
  · cases h
  rename_i info hinfo
  have hd := (C84_accepted_iff _ hl _ _ _).1 hinfo
  have hi := h0.inv ((extends_register h).fits hf)
  rcases register_spec hi h hf.1 with ⟨e1, _⟩ | ⟨bits, hdl, hb, hlk, hfam, ⟨e1, _⟩ | ⟨_, is, hst⟩⟩
  · cases e1
  · cases e1
  obtain ⟨l, d, v1, _⟩ := hst.view_self hi hf.1 hlk
  refine ⟨info, _, hd, v1, rfl, rfl, ?_, ?_⟩
  · have := scriptBits_length hb
    rw [List.length_replicate] at this
    exact this
  · intro c
    simp only
    have key : ∀ (codes : List Int) (b b' : List Bool), Registry.setScripts codes b = some b' →
        (b'[c]? = some true ↔ b[c]? = some true ∨ (c : Int) ∈ codes) := by
      intro codes
      induction codes with
      | nil => intro b b' h; cases h; simp
      | cons x xs ih =>
        intro b b' h
        unfold Registry.setScripts at h
        split at h
        · rename_i hx
          rw [ih _ _ h, List.getElem?_set, List.mem_cons]
          by_cases he : (c : Int) = x
          · rw [if_pos (by omega), if_pos (by omega)]
            simp [he]
          · rw [if_neg (by omega)]
            constructor
            · rintro (h1 | h1)
              · exact .inl h1
              · exact .inr (.inr h1)
            · rintro (h1 | h1 | h1)
              · exact .inl h1
              · exact absurd h1 he
              · exact .inr h1
        · cases h
    have hlen := scriptBits_length hb
    rw [List.length_replicate] at hlen
    unfold Registry.scriptBits at hb
    split at hb
    · rename_i hnil
      cases hb
      simp only [hnil, true_or, and_true]
      rw [List.getElem?_map, List.getElem?_replicate]
      split
      · simp [*]
      · simp [*]
    · rename_i hne
      rw [key _ _ _ hb]
      have hrep : ¬ (List.replicate lib.codeLimit false)[c]? = some true := by
        rw [List.getElem?_replicate]; split <;> simp
      constructor
      · rintro (h1 | h1)
        · exact absurd h1 hrep
        · have : bits[c]? = some true := (key _ _ _ hb).2 (.inr h1)
          exact ⟨by have := (List.getElem?_eq_some_iff.1 this).1; omega, .inr h1⟩
      · rintro ⟨_, h1 | h1⟩
        · exact absurd h1 hne
        · exact .inr h1

/-- C84 for a directory: the documents are registered in order up to the first one
that is not accepted; its error is returned and the rest is not looked at. -/
theorem C84_directory (lib : FontLib) (scriptOf : String → ScriptCode) (docs : List (Option Json)) (r r' : Registry) (e : RegistryError)
    (h : Registry.registerAllJson lib scriptOf docs r = some (r', e)) :
    ∃ (pre post : List (Option Json)) (rs : List Registry), docs = pre ++ post ∧ rs.length = pre.length + 1 ∧ rs.head? = some r ∧
      (∀ (k : Nat) (d : Option Json) (a : Registry), pre[k]? = some d → rs[k]? = some a →
        ∃ b, rs[k + 1]? = some b ∧ a.registerJson lib scriptOf d = some (b, .none)) ∧
      ∃ last, rs.getLast? = some last ∧
        (post = [] ∧ e = .none ∧ r' = last ∨ ∃ d rest, post = d :: rest ∧ e ≠ .none ∧ last.registerJson lib scriptOf d = some (r', e)) := by
  induction docs generalizing r with
  | nil =>
    cases h
    exact ⟨[], [], [r'], rfl, rfl, rfl, by simp, r', rfl, .inl ⟨rfl, rfl, rfl⟩⟩
  | cons d ds ih =>
    unfold Registry.registerAllJson at h
    split at h
    · cases h
    · rename_i r1 hr1
      obtain ⟨pre, post, rs, h1, h2, h3, h4, last, h5, h6⟩ := ih r1 h
      cases rs with
      | nil => cases h3
      | cons a rs =>
        simp only [List.head?_cons, Option.some.injEq] at h3
        subst h3
        refine ⟨d :: pre, post, r :: a :: rs, by rw [h1]; rfl, by simp only [List.length_cons] at h2 ⊢; omega, rfl, ?_,
          last, by rw [List.getLast?_cons_cons]; exact h5, h6⟩
        intro k x y hx hy
        cases k with
        | zero =>
          simp only [List.getElem?_cons_zero, Option.some.injEq] at hx hy
          subst hx; subst hy
          exact ⟨a, rfl, hr1⟩
        | succ k => exact h4 k x y hx hy
    · rename_i r1 e1 hne hr1
      cases h
      refine ⟨[], d :: ds, [r], rfl, rfl, rfl, by simp, r, rfl, .inr ⟨d, ds, rfl, ?_, hr1⟩⟩
      intro he
      subst he
      exact hne rfl

/-- Two scripts, one of them twice. -/
example : jsonFamily 4 demoScriptOf (demoFamilyJson [.str "Cyrl", .int 1, .str "Latn"]) =
    some (some ⟨"Serif", [1, 2], [], ["CJK"],
      some [⟨"Serif-Bold", "bold.ttf", 6#4, .italic⟩, ⟨"Serif", "sans.ttf", 3#4, .normal⟩]⟩) := by decide +kernel

/-- A number out of range, a value of another type, a name that stands for several
scripts. -/
example : jsonFamily 4 demoScriptOf (demoFamilyJson [.int 4]) = some none ∧
    jsonFamily 4 demoScriptOf (demoFamilyJson [.null]) = some none ∧
    jsonFamily 4 demoScriptOf (demoFamilyJson [.str "ja"]) = some none := by decide +kernel

/-- The same family twice: the directory is given up, the third document is not
looked at. -/
example : (Registry.registerAllJson demoLib demoScriptOf [demoFamilyJson [.int 1], demoFamilyJson [.int 2], none] .init).map
    (fun x => (x.2, (x.1.view "Serif").map (·.scripts))) = some (.alreadyLoaded, some [false, true, false, false]) := by decide +kernel

end RichText
