import Verif.EntryLemmas
import Verif.ReshapeRun

/-!
# The moves and messages of the three algorithms

Each loop of `Verif/Reshape.lean` is described by the set of its moves or messages; the position of a message is a
prefix sum of message sizes.
-/

namespace Verif

/-- The box of rank `r`. -/
def boxAt (l : List Box) (r : Nat) : Box := l.getD r Box.none3

theorem boxAt_get {l : List Box} {r : Nat} (h : r < l.length) : l[r]? = some (boxAt l r) := by
  unfold boxAt
  rw [List.getD_eq_getElem?_getD, List.getElem?_eq_getElem h]
  rfl

/-- The entry for rank `q` in a list of entries. -/
def look (entries : List Entry) (q : Nat) : Option Entry := entries.find? fun e => decide (e.proc = q)

/-- The size of the message for rank `q`. -/
def lookSize (entries : List Entry) (q : Nat) : Int := ((look entries q).map Entry.size).getD 0

theorem look_some {entries : List Entry} (hn : (entries.map Entry.proc).Nodup) {q : Nat} {e : Entry} :
    look entries q = some e ↔ e ∈ entries ∧ e.proc = q := by
  unfold look
  induction entries with
  | nil => simp
  | cons a t ih =>
    simp only [List.map_cons, List.nodup_cons] at hn
    rw [List.find?_cons]
    by_cases h : a.proc = q
    · simp only [h, decide_true, Option.some.injEq, List.mem_cons]
      constructor
      · rintro rfl; exact ⟨.inl rfl, h⟩
      · rintro ⟨rfl | he, hq⟩
        · rfl
        · exfalso; apply hn.1; rw [h, ← hq]; exact List.mem_map_of_mem he
    · simp only [h, decide_false, List.mem_cons]
      rw [ih hn.2]
      constructor
      · rintro ⟨h1, h2⟩; exact ⟨.inr h1, h2⟩
      · rintro ⟨rfl | he, hq⟩
        · exact absurd hq h
        · exact ⟨he, hq⟩

theorem look_overlapG {mk : Box → Box → PackPlan} {me : Nat} {source : Box} {boxes : List Box} (hm : me < boxes.length)
    (q : Nat) : look (overlapG mk me source boxes) q = entryAt mk source boxes q := by
  rcases h : entryAt mk source boxes q with _ | e
  · rw [Option.eq_none_iff_forall_ne_some]
    intro e he
    rw [look_some (overlapG_nodup hm), mem_overlapG hm] at he
    rw [he.2, h] at he
    exact absurd he.1 (by simp)
  · rw [look_some (overlapG_nodup hm), mem_overlapG hm, entryAt_proc h]
    exact ⟨h, rfl⟩

/-! ## alltoallv -/

theorem ioInner_aux (q : Nat) : ∀ (entries : List Entry) (k : Nat) (row : IoRow) (off : Int),
    (entries.map Entry.proc).Nodup →
    (entries.zipIdx k).foldl (fun (st : IoRow × Int) e =>
        if e.1.proc ≠ q then st else (⟨e.1.size, st.2, some e.2⟩, st.2 + e.1.size)) (row, off) =
      match look entries q with
      | none => (row, off)
      | some e => (⟨e.size, off, (entries.findIdx? fun e => decide (e.proc = q)).map (· + k)⟩, off + e.size)
  | [], _, _, _, _ => rfl
  | a :: t, k, row, off, hn => by
    simp only [List.map_cons, List.nodup_cons] at hn
    rw [List.zipIdx_cons, List.foldl_cons]
    by_cases h : a.proc = q
    · have hnone : look t q = none := by
        rw [Option.eq_none_iff_forall_ne_some]
        intro e he
        rw [look_some hn.2] at he
        apply hn.1; rw [h, ← he.2]; exact List.mem_map_of_mem he.1
      dsimp only
      rw [if_neg (by simp [h]), ioInner_aux q t (k + 1) _ _ hn.2, hnone]
      simp [look, h, List.findIdx?_cons]
    · dsimp only
      rw [if_pos h, ioInner_aux q t (k + 1) _ _ hn.2]
      have : look (a :: t) q = look t q := by simp [look, h]
      rw [this]
      cases look t q with
      | none => rfl
      | some e =>
        simp only [List.findIdx?_cons, h, decide_false]
        congr 2
        simp only [Bool.false_eq_true, if_false, Option.map_map]
        congr 1
        funext i; simp only [Function.comp_apply]; omega

theorem ioInner_eq {entries : List Entry} (hn : (entries.map Entry.proc).Nodup) (q : Nat) (off : Int) :
    ∃ row, ioInner q entries off = (row, off + lookSize entries q) ∧ row.count = lookSize entries q ∧
      row.displ = (if (look entries q).isSome then off else 0) ∧ row.map.bind (entries[·]?) = look entries q := by
  unfold ioInner
  rw [ioInner_aux q entries 0 _ _ hn]
  unfold lookSize
  rcases h : look entries q with _ | e
  · exact ⟨⟨0, 0, none⟩, by simp, rfl, rfl, rfl⟩
  · refine ⟨_, rfl, rfl, rfl, ?_⟩
    simp only [Nat.add_zero, Option.map_id']
    unfold look at h
    clear hn
    induction entries with
    | nil => simp at h
    | cons a t ih =>
      rw [List.find?_cons] at h
      by_cases ha : a.proc = q
      · simp [ha] at h
        subst h
        simp [List.findIdx?_cons, ha]
      · simp only [ha, decide_false] at h
        have := ih h
        simp only [List.findIdx?_cons, ha, decide_false, Bool.false_eq_true, if_false]
        rw [← this]
        cases List.findIdx? (fun e => decide (e.proc = q)) t <;> simp

theorem seg_cons (f : Nat → Int) (a : Nat) (t : List Nat) (q : Nat) :
    seg f (a :: t) q = if a = q then 0 else f a + seg f t q := rfl

theorem mem_cons_seg {f : Nat → Int} {a : Nat} {t : List Nat} (hn : a ∉ t) {P : Nat → Int → Prop} {off : Int} :
    (∃ q ∈ a :: t, P q (off + seg f (a :: t) q)) ↔ P a off ∨ ∃ q ∈ t, P q (off + f a + seg f t q) := by
  constructor
  · rintro ⟨q, hq, hP⟩
    rcases List.mem_cons.1 hq with rfl | h
    · left; simpa [seg_cons] using hP
    · right
      have : a ≠ q := by rintro rfl; exact hn h
      rw [seg_cons, if_neg this] at hP
      exact ⟨q, h, by rw [add_assoc]; exact hP⟩
  · rintro (h | ⟨q, hq, hP⟩)
    · exact ⟨a, by simp, by simpa [seg_cons] using h⟩
    · have : a ≠ q := by rintro rfl; exact hn hq
      exact ⟨q, by simp [hq], by rw [seg_cons, if_neg this, ← add_assoc]; exact hP⟩

theorem mem_ioMsgs {entries : List Entry} (hn : (entries.map Entry.proc).Nodup) (mk : Nat → Int → Int → Msg) :
    ∀ (g : List Nat) (off : Int), g.Nodup → ∀ m,
      m ∈ (g.zip (ioRows entries g off)).map (fun x => mk x.1 x.2.displ x.2.count) ↔
        ∃ q ∈ g, m = mk q (if (look entries q).isSome then off + seg (lookSize entries) g q else 0) (lookSize entries q)
  | [], _, _, m => by simp [ioRows]
  | a :: t, off, hg, m => by
    rw [List.nodup_cons] at hg
    obtain ⟨row, h1, h2, h3, h4⟩ := ioInner_eq hn a off
    have e1 : ioRows entries (a :: t) off = row :: ioRows entries t (off + lookSize entries a) := by
      simp only [ioRows, h1]
    rw [e1, List.zip_cons_cons, List.map_cons, List.mem_cons, mem_ioMsgs hn mk t _ hg.2,
      mem_cons_seg hg.1 (P := fun q x => m = mk q (if (look entries q).isSome then x else 0) (lookSize entries q))]
    dsimp only
    rw [h2, h3]

theorem ioMsgs_peers {entries : List Entry} (mk : Nat → Int → Int → Msg) (hmk : ∀ q x y, (mk q x y).peer = q) :
    ∀ (g : List Nat) (off : Int),
      ((g.zip (ioRows entries g off)).map (fun x => mk x.1 x.2.displ x.2.count)).map Msg.peer = g
  | [], _ => rfl
  | a :: t, off => by
    simp only [ioRows, List.zip_cons_cons, List.map_cons, hmk]
    rw [ioMsgs_peers mk hmk t]

theorem mem_allToAllvPack {entries : List Entry} (hn : (entries.map Entry.proc).Nodup) (nb : Nat) (inSize : Int) :
    ∀ (g : List Nat) (off off' : Int), g.Nodup → ∀ m,
      m ∈ allToAllvPack nb inSize entries (ioRows entries g off) off' ↔
        ∃ q ∈ g, ∃ e, look entries q = some e ∧ ∃ j, j < nb ∧
          m ∈ packMoves e.plan (e.offset + j * inSize) (off' + seg (fun q => nb * lookSize entries q) g q + j * e.size)
  | [], _, _, _, m => by simp [ioRows, allToAllvPack]
  | a :: t, off, off', hg, m => by
    rw [List.nodup_cons] at hg
    obtain ⟨row, h1, h2, h3, h4⟩ := ioInner_eq hn a off
    have e1 : ioRows entries (a :: t) off = row :: ioRows entries t (off + lookSize entries a) := by
      simp only [ioRows, h1]
    rw [e1, mem_cons_seg hg.1 (P := fun q x => ∃ e, look entries q = some e ∧ ∃ j, j < nb ∧
      m ∈ packMoves e.plan (e.offset + j * inSize) (x + j * e.size))]
    unfold allToAllvPack
    rw [h4]
    rcases hlk : look entries a with _ | e
    · dsimp only
      rw [mem_allToAllvPack hn nb inSize t _ _ hg.2]
      simp [lookSize, hlk]
    · dsimp only
      rw [List.mem_append, mem_allToAllvPack hn nb inSize t _ _ hg.2]
      simp [lookSize, hlk]

theorem mem_allToAllvUnpack {entries : List Entry} (hn : (entries.map Entry.proc).Nodup) (direct : Bool) (stride nb : Nat)
    (outSize base : Int) : ∀ (g : List Nat) (off off' : Int), g.Nodup → ∀ m,
      m ∈ allToAllvUnpack direct stride nb outSize base entries (ioRows entries g off) off' ↔
        ∃ q ∈ g, ∃ e, look entries q = some e ∧ ∃ j, j < nb ∧
          m ∈ unpackWith direct stride e.plan (base + (off' + seg (fun q => nb * lookSize entries q) g q + j * e.size))
            (e.offset + j * outSize)
  | [], _, _, _, m => by simp [ioRows, allToAllvUnpack]
  | a :: t, off, off', hg, m => by
    rw [List.nodup_cons] at hg
    obtain ⟨row, h1, h2, h3, h4⟩ := ioInner_eq hn a off
    have e1 : ioRows entries (a :: t) off = row :: ioRows entries t (off + lookSize entries a) := by
      simp only [ioRows, h1]
    rw [e1, mem_cons_seg hg.1 (P := fun q x => ∃ e, look entries q = some e ∧ ∃ j, j < nb ∧
      m ∈ unpackWith direct stride e.plan (base + (x + j * e.size)) (e.offset + j * outSize))]
    unfold allToAllvUnpack
    rw [h4]
    rcases hlk : look entries a with _ | e
    · dsimp only
      rw [mem_allToAllvUnpack hn direct stride nb outSize base t _ _ hg.2]
      simp [lookSize, hlk]
    · dsimp only
      rw [List.mem_append, mem_allToAllvUnpack hn direct stride nb outSize base t _ _ hg.2]
      simp [lookSize, hlk]

theorem seg_mul (c : Int) (f : Nat → Int) : ∀ (l : List Nat) (q : Nat), seg (fun q => c * f q) l q = c * seg f l q
  | [], _ => by simp [seg]
  | a :: t, q => by
    rw [seg_cons, seg_cons, seg_mul c f t q]
    split
    · simp
    · rw [mul_add]

theorem seg_congr {f g : Nat → Int} {l : List Nat} (h : ∀ a ∈ l, f a = g a) (q : Nat) : seg f l q = seg g l q := by
  induction l with
  | nil => rfl
  | cons a t ih =>
    rw [seg_cons, seg_cons, h a (by simp), ih (fun b hb => h b (by simp [hb]))]

end Verif
