import Verif.Src.PreScan
import Verif.Src.IfToks
/-! The tokens of a group of PreSpec are a group of Verif.Pp.CondSpec. -/
namespace Toycc.Src
open Toycc.Lex (asc)
open Toycc.Pp (Bytes PTok Dir Group Tail plain condName isHash)
open Toycc.Parse (Tok P)

theorem Items.append {cur : Bytes} {a b : List Item} {l : List PTok} (h : Items cur (a ++ b) l) : ∃ l1 l2, l = l1 ++ l2 ∧ Items cur a l1 ∧ Items cur b l2 := by
  induction a generalizing l with
  | nil => exact ⟨[], l, rfl, .nil, h⟩
  | cons i a ih =>
    cases h with
    | cons h1 h2 =>
      obtain ⟨l1, l2, rfl, h3, h4⟩ := ih h2
      exact ⟨_ :: l1, l2, rfl, .cons h1 h3, h4⟩

theorem Items.map {cur : Bytes} {a : List Item} {l : List PTok} (h : Items cur a l) {f : PTok → PTok}
    (hf : ∀ p, (f p).text = p.text ∧ (f p).kind = p.kind ∧ (f p).payload = p.payload ∧ (f p).bol = p.bol ∧ (f p).sp = p.sp ∧ (f p).hs = p.hs ∧ (f p).file = p.file) : Items cur a (l.map f) := by
  induction h with
  | nil => exact .nil
  | @cons i p is ps h1 _ ih =>
    obtain ⟨e1, e2, e3, e4, e5, e6, e7⟩ := hf p
    refine .cons ⟨?_, by rw [e4]; exact h1.bol, by rw [e5]; exact h1.white, by rw [e5]; exact h1.tight, by rw [e6]; exact h1.hs, by rw [e7]; exact h1.file⟩ ih
    have := h1.pt
    generalize i.tok = t at this
    cases this with
    | hash a b => exact .hash (by rw [e1]; exact a) (by rw [e2]; exact b)
    | tok a => exact .tok (by unfold Is at a ⊢; rw [e1, e2, e3]; exact a)
    | str a b => exact .str (by rw [e1]; exact a) (by rw [e2]; exact b)

theorem pt_tok {t : Tok} {p : PTok} (h : IsPT (.tok t) p) : Is t p := by
  cases h with
  | tok h => exact h

theorem pt_noEof {t : PT} {p : PTok} (h : IsPT t p) : p.isEof = false := by
  unfold Pp.PTok.isEof
  cases h with
  | hash _ h => rw [h]; rfl
  | tok h => simpa using h.2.1
  | str _ h => rw [h]; rfl

theorem Items.noEof {cur : Bytes} {a : List Item} {l : List PTok} (h : Items cur a l) : ∀ p ∈ l, p.isEof = false := by
  induction h with
  | nil => intro p hp; cases hp
  | cons h1 _ ih =>
    intro q hq
    rcases List.mem_cons.mp hq with rfl | hq
    · exact pt_noEof h1.pt
    · exact ih q hq

/-- Tokens in the middle of a line. -/
theorem Items.inner {cur : Bytes} {ts : List Tok} {l : List PTok} (h : Items cur (inner ts) l) : All ts l ∧ ∀ p ∈ l, p.bol = false ∧ p.hs = [] ∧ p.file.name = cur := by
  induction ts generalizing l with
  | nil => cases h; exact ⟨.nil, by simp⟩
  | cons t ts ih =>
    cases h with
    | cons h1 h2 =>
      obtain ⟨h3, h4⟩ := ih h2
      refine ⟨.cons (pt_tok h1.pt) h3, fun p hp => ?_⟩
      rcases List.mem_cons.mp hp with rfl | hp
      · exact ⟨h1.bol, h1.hs, h1.file⟩
      · exact h4 p hp

theorem nm_cases (s : String) : nm s = .ident s ∨ nm s = .kw s := by
  unfold nm
  split
  · exact .inr rfl
  · exact .inl rfl

/-- The tokens of a directive's beginning. -/
theorem Items.dir {cur : Bytes} {s : String} {a : List Item} {l : List PTok} (h : Items cur (dirItems s ++ a) l) :
    ∃ k n r, l = k :: n :: r ∧ isHash k = true ∧ k.kind = .punct ∧ n.kind = .ident ∧ n.text = asc s ∧ ascii s ∧ n.bol = false ∧ k.file.name = cur ∧ n.file.name = cur ∧ Items cur a r := by
  cases h with
  | cons h1 h2 =>
    cases h2 with
    | cons h3 h4 =>
      rename_i k n r
      obtain ⟨hk, htx, ha⟩ := is_name (pt_tok h3.pt) (nm_cases s)
      refine ⟨k, n, r, rfl, ?_, ?_, hk, htx, ha, h3.bol, h1.file, h3.file, h4⟩
      · have := h1.pt
        cases this with
        | hash h _ =>
          unfold Pp.isHash Pp.PTok.is
          rw [h1.bol, h]; simp
      · have := h1.pt
        cases this with
        | hash _ h => exact h

theorem text_is {p : PTok} {s : String} (h : p.text = asc s) : p.is s = true := by
  unfold Pp.PTok.is
  rw [h]; simp

theorem text_isnt {p : PTok} {s t : String} (h : p.text = asc s) (hs : ascii s) (ht : ascii t) (hne : s ≠ t) : p.is t = false := by
  unfold Pp.PTok.is
  rw [h]
  simpa using fun e => hne (asc_inj hs ht e)

def condNames : List String := ["if", "ifdef", "ifndef", "elif", "else", "endif"]

theorem condNames_ascii : ∀ s ∈ condNames, ascii s := by
  unfold condNames ascii
  decide

theorem not_cond {p : PTok} {s : String} (h : p.text = asc s) (hs : ascii s) (hn : s ∉ condNames) : condName p = false := by
  have key : ∀ t ∈ condNames, p.is t = false := fun t ht => text_isnt h hs (condNames_ascii t ht) (fun e => hn (e ▸ ht))
  unfold Pp.condName Pp.opensIf
  rw [key "if" (by decide), key "ifdef" (by decide), key "ifndef" (by decide), key "elif" (by decide), key "else" (by decide), key "endif" (by decide)]
  rfl

/-! ### Pieces of text -/

/-- A line that is not a directive of conditional inclusion. -/
structure Piece (l : List PTok) : Prop where
  ne : l ≠ []
  head : ∀ t ∈ l.head?, t.bol = true
  tail : ∀ t ∈ l.tail, t.bol = false
  eof : ∀ t ∈ l, t.isEof = false
  dir : ∀ t r, l = t :: r → isHash t = true → ∃ u r', r = u :: r' ∧ condName u = false

theorem plain_mid : ∀ (l l2 : List PTok), (∀ t ∈ l, t.bol = false ∧ t.isEof = false) → plain l2 = true → plain (l ++ l2) = true := by
  intro l l2
  induction l with
  | nil => intro _ h; exact h
  | cons t r ih =>
    intro h1 h2
    rw [List.cons_append, plain]
    have : isHash t = false := by unfold Pp.isHash; rw [(h1 t List.mem_cons_self).1]; rfl
    rw [this, (h1 t List.mem_cons_self).2, ih (fun u hu => h1 u (List.mem_cons_of_mem _ hu)) h2]
    rfl

theorem Piece.isPlain {l l2 : List PTok} (h : Piece l) (h2 : plain l2 = true) : plain (l ++ l2) = true := by
  cases l with
  | nil => exact absurd rfl h.ne
  | cons t r =>
    rw [List.cons_append, Pp.plain]
    have h3 := plain_mid r l2 (fun u hu => ⟨h.tail u hu, h.eof u (List.mem_cons_of_mem _ hu)⟩) h2
    rw [h3, h.eof t List.mem_cons_self]
    cases hh : isHash t with
    | false => rfl
    | true =>
      obtain ⟨u, r', rfl, hu⟩ := h.dir t r rfl hh
      simp [hu]

theorem Piece.group {l : List PTok} (h : Piece l) {g : Group} (hg : g.Wf) : ∃ g' : Group, g'.Wf ∧ g'.flat = l ++ g.flat := by
  have hp0 : Pp.plain l = true := by
    have := h.isPlain (l2 := []) rfl
    rwa [List.append_nil] at this
  have hd : ∀ l2 : List PTok, ∀ t ∈ (l ++ l2).head?, t.bol = true := by
    intro l2 t ht
    have hne := h.ne
    have hh := h.head
    cases l with
    | nil => exact absurd rfl hne
    | cons a r => exact hh t ht
  cases g with
  | nil => exact ⟨.text l .nil, ⟨hp0, h.head, (fun _ _ e => by cases e), trivial⟩, rfl⟩
  | text l' g' =>
    obtain ⟨h1, h2, h3, h4⟩ := hg
    refine ⟨.text (l ++ l') g', ⟨h.isPlain h1, hd l', h3, h4⟩, ?_⟩
    simp [Group.flat]
  | sect o b t g => exact ⟨.text l (.sect o b t g), ⟨hp0, h.head, (fun _ _ e => by cases e), hg⟩, rfl⟩

theorem Items.bol {cur : Bytes} {a : List Item} {l : List PTok} (h : Items cur a l) (hb : ∀ i ∈ a, i.bol = false) : ∀ p ∈ l, p.bol = false := by
  induction h with
  | nil => intro p hp; cases hp
  | cons h1 _ ih =>
    intro q hq
    rcases List.mem_cons.mp hq with rfl | hq
    · rw [h1.bol]; exact hb _ List.mem_cons_self
    · exact ih (fun i hi => hb i (List.mem_cons_of_mem _ hi)) q hq

theorem piece_dir {cur : Bytes} {s : String} {a : List Item} {l : List PTok} (h : Items cur (dirItems s ++ a) l) (ha : ∀ i ∈ a, i.bol = false) (hs : s ∉ condNames) : Piece l := by
  have he := h.noEof
  obtain ⟨k, n, r, rfl, h1, h2, h3, h4, h5, h6, _, _, h7⟩ := h.dir
  refine ⟨by simp, ?_, ?_, he, ?_⟩
  · intro t ht
    cases ht
    unfold Pp.isHash at h1
    exact (Bool.and_eq_true _ _ ▸ h1).1
  · intro t ht
    rcases List.mem_cons.mp ht with rfl | ht
    · exact h6
    · exact h7.bol ha t ht
  · intro t r' e _
    cases e
    exact ⟨n, r, rfl, not_cond h4 h5 hs⟩

theorem piece_line {cur : Bytes} {t : Tok} {ts : List Tok} {l : List PTok} (h : Items cur (⟨.tok t, true, .any⟩ :: inner ts) l) : Piece l := by
  have he := h.noEof
  cases h with
  | cons h1 h2 =>
    refine ⟨by simp, ?_, ?_, he, ?_⟩
    · intro t ht
      cases ht
      exact h1.bol
    · intro t ht
      exact (h2.inner.2 t ht).1
    · intro t r e hh
      cases e
      rw [(is_hash (pt_tok h1.pt)).2] at hh
      cases hh

/-- A directive with a name and a line. -/
theorem dir_wf {cur : Bytes} {s : String} {a : List Item} {l : List PTok} (h : Items cur (dirItems s ++ a) l) (ha : ∀ i ∈ a, i.bol = false) :
    ∃ d : Dir, d.Wf [s] ∧ d.flat = l ∧ Items cur a d.line ∧ d.hash.file.name = cur ∧ d.name.file.name = cur ∧ d.name.text = asc s ∧ ascii s := by
  obtain ⟨k, n, r, rfl, h1, h2, h3, h4, h5, h6, h8, h9, h7⟩ := h.dir
  exact ⟨⟨k, n, r⟩, ⟨h1, h2, h3, h6, ⟨s, List.mem_singleton.mpr rfl, text_is h4⟩, fun t ht => ⟨h7.bol ha t ht, h7.noEof t ht⟩⟩, rfl, h7, h8, h9, h4, h5⟩

theorem inner_bol (ts : List Tok) : ∀ i ∈ inner ts, i.bol = false := by
  intro i hi
  obtain ⟨t, _, rfl⟩ := List.mem_map.mp hi
  rfl

theorem body_bol (b : List Tok) : ∀ i ∈ bodyItems b, i.bol = false := by
  cases b with
  | nil => intro i hi; cases hi
  | cons t ts =>
    intro i hi
    rcases List.mem_cons.mp hi with rfl | hi
    · rfl
    · exact inner_bol ts i hi

theorem param_bol (ps : List String) (va : Option String) : ∀ i ∈ paramItems ps va, i.bol = false := by
  intro i hi
  rcases List.mem_cons.mp hi with rfl | hi
  · rfl
  · exact inner_bol _ i hi

theorem header_bol (h : Header) : ∀ i ∈ h.items, i.bol = false := by
  cases h with
  | quoted name =>
    intro i hi
    rw [List.mem_singleton.mp hi]
  | angled ts =>
    intro i hi
    simp only [Header.items, List.mem_append, List.mem_cons, List.mem_map, List.not_mem_nil, or_false] at hi
    rcases hi with (rfl | ⟨t, _, rfl⟩) | rfl <;> rfl

theorem Wf_of_mem {d : Dir} {s : String} {ns : List String} (h : d.Wf [s]) (hs : s ∈ ns) : d.Wf ns := by
  obtain ⟨h1, h2, h3, h4, ⟨x, hx, h5⟩, h6⟩ := h
  rw [List.mem_singleton.mp hx] at h5
  exact ⟨h1, h2, h3, h4, ⟨s, hs, h5⟩, h6⟩

/-- The name of the opener of a section. -/
def If.name : If → String
  | .ifE _ => "if"
  | .ifdef _ => "ifdef"
  | .ifndef _ => "ifndef"

/-- The tokens after the name. -/
def If.toks : If → List Tok
  | .ifE ts => ts
  | .ifdef x => [nm x]
  | .ifndef x => [nm x]

theorem If.items_eq (c : If) : c.items = dirItems c.name ++ inner c.toks := by
  cases c <;> rfl

theorem If.opener (c : If) : c.name ∈ Pp.openers := by
  cases c <;> simp [If.name, Pp.openers]

mutual
theorem grp_group {cur : Bytes} : ∀ (G : Grp), G.Ok → ∀ l, Items cur G.items l → ∃ g : Group, g.Wf ∧ g.flat = l
  | .nil, _, l, h => by cases h; exact ⟨.nil, trivial, rfl⟩
  | .line t ts G, hok, l, h => by
    obtain ⟨l1, l2, rfl, h1, h2⟩ := Items.append h
    obtain ⟨g, hg, rfl⟩ := grp_group G hok l2 h2
    exact (piece_line h1).group hg
  | .define x b G, hok, l, h => by
    obtain ⟨l1, l2, rfl, h1, h2⟩ := Items.append h
    obtain ⟨g, hg, rfl⟩ := grp_group G hok l2 h2
    refine (piece_dir (List.append_assoc _ _ _ ▸ h1) ?_ (by decide)).group hg
    intro i hi
    rcases List.mem_append.mp hi with hi | hi
    · exact inner_bol _ i hi
    · exact body_bol _ i hi
  | .defineF x ps va b G, hok, l, h => by
    obtain ⟨l1, l2, rfl, h1, h2⟩ := Items.append h
    obtain ⟨g, hg, rfl⟩ := grp_group G hok l2 h2
    rw [List.append_assoc, List.append_assoc] at h1
    refine (piece_dir h1 ?_ (by decide)).group hg
    intro i hi
    rcases List.mem_append.mp hi with hi | hi
    · exact inner_bol _ i hi
    rcases List.mem_append.mp hi with hi | hi
    · exact param_bol _ _ i hi
    · exact inner_bol _ i hi
  | .undef x G, hok, l, h => by
    obtain ⟨l1, l2, rfl, h1, h2⟩ := Items.append h
    obtain ⟨g, hg, rfl⟩ := grp_group G hok l2 h2
    exact (piece_dir h1 (inner_bol _) (by decide)).group hg
  | .incl hd G, hok, l, h => by
    obtain ⟨l1, l2, rfl, h1, h2⟩ := Items.append h
    obtain ⟨g, hg, rfl⟩ := grp_group G hok l2 h2
    exact (piece_dir h1 (header_bol _) (by decide)).group hg
  | .once G, hok, l, h => by
    obtain ⟨l1, l2, rfl, h1, h2⟩ := Items.append h
    obtain ⟨g, hg, rfl⟩ := grp_group G hok l2 h2
    exact (piece_dir h1 (inner_bol _) (by decide)).group hg
  | .pragma t ts G, hok, l, h => by
    obtain ⟨l1, l2, rfl, h1, h2⟩ := Items.append h
    obtain ⟨g, hg, rfl⟩ := grp_group G hok l2 h2
    exact (piece_dir h1 (inner_bol _) (by decide)).group hg
  | .other x ts G, hok, l, h => by
    obtain ⟨l1, l2, rfl, h1, h2⟩ := Items.append h
    obtain ⟨g, hg, rfl⟩ := grp_group G hok.2 l2 h2
    exact (piece_dir h1 (inner_bol _) hok.1).group hg
  | .sect c b r G, hok, l, h => by
    obtain ⟨l1, l4, rfl, h1, h4⟩ := Items.append h
    obtain ⟨l1, l3, rfl, h1, h3⟩ := Items.append h1
    obtain ⟨l1, l2, rfl, h1, h2⟩ := Items.append h1
    obtain ⟨hb, hr, hG⟩ := hok
    rw [If.items_eq] at h1
    obtain ⟨d, hd, rfl, _⟩ := dir_wf h1 (inner_bol _)
    obtain ⟨gb, wb, rfl⟩ := grp_group b hb l2 h2
    obtain ⟨t, wt, _, rfl⟩ := rest_tail r hr l3 h3
    obtain ⟨g, wg, rfl⟩ := grp_group G hG l4 h4
    exact ⟨.sect d gb t g, ⟨Wf_of_mem hd c.opener, wb, wt, wg⟩, by simp [Group.flat]⟩
theorem rest_tail {cur : Bytes} : ∀ (r : Rest), r.Ok → ∀ l, Items cur r.items l → ∃ t : Tail, t.Wf ∧ t.clean ∧ t.flat = l
  | .endif, _, l, h => by
    obtain ⟨d, hd, rfl, h2, _⟩ := dir_wf (a := []) (by simpa [Rest.items] using h) (by intro i hi; cases hi)
    cases hl : d.line with
    | nil => exact ⟨.endif d, hd, hl, rfl⟩
    | cons _ _ => rw [hl] at h2; cases h2
  | .els g, hok, l, h => by
    obtain ⟨l1, l3, rfl, h1, h3⟩ := Items.append h
    obtain ⟨l1, l2, rfl, h1, h2⟩ := Items.append h1
    obtain ⟨d, hd, rfl, hd2, _⟩ := dir_wf (a := []) (by simpa using h1) (by intro i hi; cases hi)
    obtain ⟨e, he, rfl, he2, _⟩ := dir_wf (a := []) (by simpa using h3) (by intro i hi; cases hi)
    obtain ⟨g', wg, rfl⟩ := grp_group g hok l2 h2
    refine ⟨.els d g' e, ⟨hd, wg, he⟩, ?_, by simp [Tail.flat]⟩
    cases hl : e.line with
    | nil => exact hl
    | cons _ _ => rw [hl] at he2; cases he2
  | .elif ts g r, hok, l, h => by
    obtain ⟨l1, l3, rfl, h1, h3⟩ := Items.append h
    obtain ⟨l1, l2, rfl, h1, h2⟩ := Items.append h1
    obtain ⟨d, hd, rfl, hd2, _⟩ := dir_wf h1 (inner_bol _)
    obtain ⟨g', wg, rfl⟩ := grp_group g hok.1 l2 h2
    obtain ⟨t, wt, ct, rfl⟩ := rest_tail r hok.2 l3 h3
    exact ⟨.elif d g' t, ⟨hd, wg, wt⟩, ct, by simp [Tail.flat]⟩
end

end Toycc.Src
