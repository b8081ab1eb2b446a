import Verif.Parse.Proof
/-! C43: precedence and associativity. -/
namespace Toycc.Parse

variable {T : Type} (O : Oracle T)

theorem prefixCast_operand {op : UOp} (h : op.operand = 13) : prefixCast op.tok = some (some op) := by cases op <;> first | rfl | cases h

theorem notType {tn : T → List Tok} (hO : O.Good tn) {t : Tok} (h1 : ∀ s, t ≠ .ident s) (h2 : ∀ s, t = .kw s → s = "sizeof" ∨ s = "_Alignof") : O.isType t = false := by
  cases h : O.isType t with
  | false => rfl
  | true =>
    rcases hO.word _ h with ⟨s, h⟩ | ⟨s, h, h3, h4⟩
    · exact absurd h (h1 s)
    · rcases h2 s h with h | h
      · exact absurd h h3
      · exact absurd h h4

/-- Constants and strings. -/
theorem G_leaf {a : Tok} {t : Tree T} (hs : starter a = true) (hty : O.isType a = false) (h1 : prefixCast a = none) (h2 : prefixUnary a = none) (h3 : a ≠ .p .ampamp)
    (ho : ∀ r, opensType O (a :: r) = false) (h : ∀ f rest, primary O (f + 1) (a :: rest) = .ok (t, rest)) : G O 16 [a] t := by
  refine G_of O ⟨⟨_, _, rfl, hs, hty⟩, fun _ rest => ho _, fun _ => ⟨_, _, rfl, h1, h2, h3⟩⟩ ?_ (fun _ h => absurd h (by omega)) (fun h => absurd h (by omega))
  intro _ rest y hy
  refine Y.step (h := fun f => primary O f (a :: rest) >>= fun z => tails O f z.1 z.2) (fun f => ?_) ?_
  · show postfixE O (f + 1) (a :: rest) = _
    rw [postfixE, ho]
    rfl
  · exact Y.bind (x := (t, rest)) (Y.step (h := fun _ => .ok (t, rest)) (fun f => h f rest) (Y.ret _)) hy

/-- Postfix operators without operands. -/
theorem G_post {s u : List Tok} {e t : Tree T} (ge : G O 15 s e)
    (h : ∀ rest y, Y (fun f => tails O f t rest) y → Y (fun f => tails O f e (u ++ rest)) y) : G O 15 (s ++ u) t := by
  refine G_of O ⟨?_, fun _ => (ge.first15 O _).1, fun _ => (ge.first15 O _).2⟩ ?_ (fun _ h => absurd h (by omega)) (fun h => absurd h (by omega))
  · obtain ⟨x, s, e, h1, h2⟩ := ge.first.head
    exact ⟨x, _, by rw [e]; rfl, h1, h2⟩
  intro _ rest y hy
  rw [List.append_assoc]
  exact ge.a15 (by omega) _ _ (h rest y hy)

mutual
theorem derives_G {tn : T → List Tok} (hO : O.Good tn) (hp : ∀ q : P, O.isType (.p q) = false) : ∀ {q t s}, Derives O tn false q t s → G O q s t
  | _, _, _, .outer h hq => (derives_G hO hp h).outer O hq
  | _, _, _, .par h => G_par O hp (derives_G hO hp h)
  | _, _, _, .ident ok => by
    rcases ok with ok | ok
    · exact G_leaf O rfl ok rfl rfl (by intro e; cases e) (fun _ => rfl) (fun _ _ => rfl)
    · cases ok
  | _, _, _, .num v => G_leaf O rfl (notType O hO (fun _ e => by cases e) (fun _ e => by cases e)) rfl rfl (by intro e; cases e) (fun _ => rfl) (fun _ _ => rfl)
  | _, _, _, .tnum k v => G_leaf O rfl (notType O hO (fun _ e => by cases e) (fun _ e => by cases e)) rfl rfl (by intro e; cases e) (fun _ => rfl) (fun _ _ => rfl)
  | _, _, _, .str v => G_leaf O rfl (notType O hO (fun _ e => by cases e) (fun _ e => by cases e)) rfl rfl (by intro e; cases e) (fun _ => rfl) (fun _ _ => rfl)
  | _, _, _, @Derives.bin _ _ _ _ op l r sl sr dl dr => by
    have gl := derives_G hO hp dl
    have gr := derives_G hO hp dr
    have hr := prec_range op
    have hb : A O op.prec (sl ++ op.tok :: sr) (.bin op l r) := by
      intro rest y hs hy
      have e : (sl ++ op.tok :: sr) ++ rest = sl ++ (op.tok :: (sr ++ rest)) := by simp
      rw [e]
      refine gl.a op.prec (Nat.le_refl _) hr.1 hr.2 _ y (tok_stops op _) ?_
      refine Y.step (h := fun f => binary O f (op.prec + 1) (sr ++ rest) >>= fun z => loop O f op.prec (.bin op l z.1) z.2) ?_ ?_
      · intro f
        simp only [loop, opAt_tok]
      · refine Y.bind (x := (r, rest)) ?_ hy
        by_cases h12 : op.prec = 12
        · rw [h12] at gr
          have h := gr.ps 13 (by omega) (by omega) rest (by rw [h12] at hs; exact hs)
          rw [h12]
          exact Y.step (h := fun f => cast O f (sr ++ rest)) (fun f => by rw [binary, if_pos (by omega)]) (h.of_eq fun f => rfl)
        · exact (gr.ps (op.prec + 1) (by omega) (by omega) rest hs).of_eq fun f => (parseAt_bin O (by omega) (by omega) f _).symm
    refine G_of O ⟨?_, fun h => absurd h (by omega), fun h => absurd h (by omega)⟩
      (fun h => absurd h (by omega)) (fun _ _ => hb) (fun _ => PS_of_A O hr.1 hr.2 hb)
    obtain ⟨a, s, e, h1, h2⟩ := gl.first.head
    exact ⟨a, s ++ op.tok :: sr, by simp [e], h1, h2⟩
  | _, _, _, @Derives.assign _ _ _ _ op tk l r sl sr htk dl dr => by
    have gl := derives_G hO hp dl
    have gr := derives_G hO hp dr
    have hlev := assignOp_level (assignOp_tok htk)
    refine G_of O ⟨?_, fun h => absurd h (by omega), fun h => absurd h (by omega)⟩ (fun h => absurd h (by omega))
      (fun h => absurd h (by omega)) (fun _ => ?_)
    · obtain ⟨a, s, e, h1, h2⟩ := gl.first.head
      exact ⟨a, s ++ tk :: sr, by simp [e], h1, h2⟩
    intro rest hs
    have e : (sl ++ tk :: sr) ++ rest = sl ++ (tk :: (sr ++ rest)) := by simp
    rw [e]
    have hl2 : PS O 2 sl l := gl.ps 2 (by omega) (by omega)
    refine Y.step (g := fun f => parseAt O 1 f _) (h := fun f => conditional O f (sl ++ (tk :: (sr ++ rest))) >>= fun z =>
      match z.2 with
      | t :: r =>
        match assignOp t with
        | some op => do
          let (m, ts) ← assign O f r
          .ok (.assign op z.1 m, ts)
        | none => .ok (z.1, t :: r)
      | [] => .ok (z.1, [])) (fun f => rfl) ?_
    refine Y.bind (x := (l, tk :: (sr ++ rest))) ((hl2 _ (stops_p _ ?_)).of_eq fun f => rfl) ?_
    · intro j hj; rw [hlev] at hj; cases hj; decide
    · simp only [assignOp_tok htk]
      exact Y.bind (x := (r, rest)) ((gr.ps 1 (by omega) (by omega) rest hs).of_eq fun f => rfl) (Y.ret _)
  | _, _, _, @Derives.cond _ _ _ _ c a b sc sa sb dc da db => by
    have gc := derives_G hO hp dc
    have ga := derives_G hO hp da
    have gb := derives_G hO hp db
    refine G_of O ⟨?_, fun h => absurd h (by omega), fun h => absurd h (by omega)⟩ (fun h => absurd h (by omega))
      (fun h => absurd h (by omega)) (fun _ => ?_)
    · obtain ⟨x, s, e, h1, h2⟩ := gc.first.head
      exact ⟨x, s ++ .p .quest :: (sa ++ .p .colon :: sb), by simp [e], h1, h2⟩
    intro rest hs
    have e : (sc ++ .p .quest :: (sa ++ .p .colon :: sb)) ++ rest = sc ++ (.p .quest :: (sa ++ (.p .colon :: (sb ++ rest)))) := by simp
    rw [e]
    refine Y.step (g := fun f => parseAt O 2 f _) (h := fun f => binary O f 3 (sc ++ (.p .quest :: (sa ++ (.p .colon :: (sb ++ rest))))) >>= fun z => match z.2 with
      | .p .quest :: .p .colon :: r => do
        let (b, ts) ← conditional O f r
        .ok (.elvis z.1 b, ts)
      | .p .quest :: r => do
        let (a, ts) ← expr O f r
        let ts ← skip ts .colon
        let (b, ts) ← conditional O f ts
        .ok (.cond z.1 a b, ts)
      | ts => .ok (z.1, ts)) (fun f => rfl) ?_
    refine Y.bind (x := (c, Tok.p .quest :: (sa ++ (.p .colon :: (sb ++ rest)))))
      ((gc.ps 3 (by omega) (by omega) _ (stops_p _ (by intro j hj; cases hj; decide))).of_eq fun f => (parseAt_bin O (by omega) (by omega) f _).symm) ?_
    obtain ⟨x, s, ea, h1, h2⟩ := ga.first.head
    have hx : x ≠ .p .colon := by rintro rfl; simp [starter] at h1
    simp only
    split
    · rename_i heq
      rw [ea] at heq
      injection heq with _ heq
      injection heq with heq _
      exact absurd heq hx
    · rename_i heq
      injection heq with _ heq
      subst heq
      refine Y.bind (x := (a, Tok.p .colon :: (sb ++ rest))) ((ga.ps 0 (by omega) (by omega) _ (stops_p _ (by intro j hj; cases hj))).of_eq fun f => rfl) ?_
      refine Y.skip _ rfl ?_
      exact Y.bind (x := (b, rest)) ((gb.ps 2 (by omega) (by omega) rest hs).of_eq fun f => rfl) (Y.ret _)
    · rename_i h
      exact absurd rfl (h _)
  | _, _, _, @Derives.elvis _ _ _ _ c b sc sb dc db => by
    have gc := derives_G hO hp dc
    have gb := derives_G hO hp db
    refine G_of O ⟨?_, fun h => absurd h (by omega), fun h => absurd h (by omega)⟩ (fun h => absurd h (by omega))
      (fun h => absurd h (by omega)) (fun _ => ?_)
    · obtain ⟨x, s, e, h1, h2⟩ := gc.first.head
      exact ⟨x, s ++ .p .quest :: (.p .colon :: sb), by simp [e], h1, h2⟩
    intro rest hs
    have e : (sc ++ .p .quest :: .p .colon :: sb) ++ rest = sc ++ (.p .quest :: (.p .colon :: (sb ++ rest))) := by simp
    rw [e]
    refine Y.step (g := fun f => parseAt O 2 f _) (h := fun f => binary O f 3 (sc ++ (.p .quest :: (.p .colon :: (sb ++ rest)))) >>= fun z => match z.2 with
      | .p .quest :: .p .colon :: r => do
        let (b, ts) ← conditional O f r
        .ok (.elvis z.1 b, ts)
      | .p .quest :: r => do
        let (a, ts) ← expr O f r
        let ts ← skip ts .colon
        let (b, ts) ← conditional O f ts
        .ok (.cond z.1 a b, ts)
      | ts => .ok (z.1, ts)) (fun f => rfl) ?_
    refine Y.bind (x := (c, Tok.p .quest :: (.p .colon :: (sb ++ rest))))
      ((gc.ps 3 (by omega) (by omega) _ (stops_p _ (by intro j hj; cases hj; decide))).of_eq fun f => (parseAt_bin O (by omega) (by omega) f _).symm) ?_
    exact Y.bind (x := (b, rest)) ((gb.ps 2 (by omega) (by omega) rest hs).of_eq fun f => rfl) (Y.ret _)
  | _, _, _, @Derives.comma _ _ _ _ l r sl sr dl dr => by
    have gl := derives_G hO hp dl
    have gr := derives_G hO hp dr
    refine G_of O ⟨?_, fun h => absurd h (by omega), fun h => absurd h (by omega)⟩ (fun h => absurd h (by omega))
      (fun h => absurd h (by omega)) (fun _ => ?_)
    · obtain ⟨a, s, e, h1, h2⟩ := gl.first.head
      exact ⟨a, s ++ .p .comma :: sr, by simp [e], h1, h2⟩
    intro rest hs
    have e : (sl ++ .p .comma :: sr) ++ rest = sl ++ (.p .comma :: (sr ++ rest)) := by simp
    rw [e]
    refine Y.step (g := fun f => parseAt O 0 f _) (h := fun f => assign O f (sl ++ (.p .comma :: (sr ++ rest))) >>= fun z => match z.2 with
      | .p .comma :: r => do
        let (m, ts) ← expr O f r
        .ok (.comma z.1 m, ts)
      | ts => .ok (z.1, ts)) (fun f => rfl) ?_
    refine Y.bind (x := (l, Tok.p .comma :: (sr ++ rest))) ((gl.ps 1 (by omega) (by omega) _ (stops_p _ (by intro j hj; cases hj; decide))).of_eq fun f => rfl) ?_
    exact Y.bind (x := (r, rest)) ((gr.ps 0 (by omega) (by omega) rest hs).of_eq fun f => rfl) (Y.ret _)
  | _, _, _, @Derives.un _ _ _ _ op e se de => by
    have ge := derives_G hO hp de
    have hsz : O.isType (.kw "sizeof") = false := notType O hO (fun _ e => by cases e) (fun _ e => by cases e; exact .inl rfl)
    have hal : O.isType (.kw "_Alignof") = false := notType O hO (fun _ e => by cases e) (fun _ e => by cases e; exact .inr rfl)
    refine G_of O ⟨⟨op.tok, se, rfl, by cases op <;> rfl, by cases op <;> first | exact hp _ | exact hsz | exact hal⟩, ?_,
      fun h => absurd h (by omega)⟩ (fun h => absurd h (by omega))
      (fun h h' => absurd h' (by omega)) (fun _ => ?_)
    · intro _ rest
      cases op <;> rfl
    intro rest hs
    rw [List.cons_append]
    by_cases h13 : op.operand = 13
    · refine Y.step (g := fun f => parseAt O 14 f _) (h := fun f => cast O f (se ++ rest) >>= fun z => .ok (.un op z.1, z.2)) ?_ ?_
      · intro f
        show unary O (f + 1) (op.tok :: (se ++ rest)) = _
        simp only [unary, prefixCast_operand h13]
        rfl
      · rw [h13] at ge
        exact Y.bind (x := (e, rest)) ((ge.ps 13 (by omega) (by omega) rest (fun t r' e' j hj => by
          have := hs t r' e' j hj
          have h2 : j ≠ 13 := by rintro rfl; unfold tokLevel at hj; split at hj <;> cases hj
          omega)).of_eq fun f => rfl) (Y.ret _)
    · have h14 : op.operand = 14 := by cases op <;> first | rfl | exact absurd rfl h13
      rw [h14] at ge
      have hu : Y (fun f => unary O f (se ++ rest)) (e, rest) := (ge.ps 14 (by omega) (by omega) rest hs).of_eq fun f => rfl
      have hnt : opensType O (se ++ rest) = false := ge.first.nt (by omega) rest
      cases op with
      | preinc =>
        exact Y.step (g := fun f => parseAt O 14 f _) (h := fun f => unary O f (se ++ rest) >>= fun z => .ok (.un .preinc z.1, z.2))
          (fun f => rfl) (Y.bind (x := (e, rest)) hu (Y.ret _))
      | predec =>
        exact Y.step (g := fun f => parseAt O 14 f _) (h := fun f => unary O f (se ++ rest) >>= fun z => .ok (.un .predec z.1, z.2))
          (fun f => rfl) (Y.bind (x := (e, rest)) hu (Y.ret _))
      | sizeof =>
        refine Y.step (g := fun f => parseAt O 14 f _) (h := fun f => postfixE O f (.kw "sizeof" :: (se ++ rest))) (fun f => rfl) ?_
        refine Y.step (h := fun f => primary O f (.kw "sizeof" :: (se ++ rest)) >>= fun z => tails O f z.1 z.2) (fun f => rfl) ?_
        refine Y.bind (x := (.un .sizeof e, rest)) ?_ (tails_stop O (hs.mono (by omega)))
        refine Y.step (h := fun f => unary O f (se ++ rest) >>= fun z => .ok (.un .sizeof z.1, z.2)) ?_ (Y.bind (x := (e, rest)) hu (Y.ret _))
        intro f
        simp only [primary, hnt]
        rfl
      | alignof =>
        refine Y.step (g := fun f => parseAt O 14 f _) (h := fun f => postfixE O f (.kw "_Alignof" :: (se ++ rest))) (fun f => rfl) ?_
        refine Y.step (h := fun f => primary O f (.kw "_Alignof" :: (se ++ rest)) >>= fun z => tails O f z.1 z.2) (fun f => rfl) ?_
        refine Y.bind (x := (.un .alignof e, rest)) ?_ (tails_stop O (hs.mono (by omega)))
        refine Y.step (h := fun f => unary O f (se ++ rest) >>= fun z => .ok (.un .alignof z.1, z.2)) ?_ (Y.bind (x := (e, rest)) hu (Y.ret _))
        intro f
        simp only [primary, hnt]
        rfl
      | _ => exact absurd rfl h13
  | _, _, _, @Derives.cast _ _ _ _ t e se de => by
    have ge := derives_G hO hp de
    obtain ⟨a, r, ea, hty⟩ := hO.starts t
    obtain ⟨x, s, ex, h1, h2⟩ := ge.first.head
    have hx : x ≠ .p .lbrace := by rintro rfl; simp [starter] at h1
    refine G_of O ⟨⟨_, _, rfl, rfl, hp _⟩, fun h => absurd h (by omega),
      fun h => absurd h (by omega)⟩ (fun h => absurd h (by omega))
      (fun h h' => absurd h' (by omega)) (fun _ => ?_)
    intro rest hs
    have e' : (.p .lpar :: (tn t ++ .p .rpar :: se) : List Tok) ++ rest = .p .lpar :: (tn t ++ .p .rpar :: (se ++ rest)) := by simp
    rw [e']
    refine Y.step (g := fun f => parseAt O 13 f _) (h := fun f => cast O f (se ++ rest) >>= fun z => .ok (.cast t z.1, z.2)) ?_
      (Y.bind (x := (e, rest)) ((ge.ps 13 (by omega) (by omega) rest hs).of_eq fun f => rfl) (Y.ret _))
    intro f
    show cast O (f + 1) (.p .lpar :: (tn t ++ .p .rpar :: (se ++ rest))) = _
    have ho : opensType O (.p .lpar :: (tn t ++ .p .rpar :: (se ++ rest))) = true := by rw [ea]; exact hty
    have hb : ¬((se ++ rest).head? = some (.p .lbrace)) := by
      rw [ex]; intro h; injection h with h; exact hx h
    rw [cast, if_pos ho]
    simp only [List.tail_cons, hO.read]
    simp only [bind, Except.bind, skip, if_true]
    rw [if_neg hb]
  | _, _, _, .sizeofT t => by
    obtain ⟨a, r, ea, hty⟩ := hO.starts t
    have hsz : O.isType (.kw "sizeof") = false := notType O hO (fun _ e => by cases e) (fun _ e => by cases e; exact .inl rfl)
    refine G_of O ⟨⟨_, _, rfl, rfl, hsz⟩, fun _ rest => rfl,
      fun h => absurd h (by omega)⟩ (fun h => absurd h (by omega))
      (fun h h' => absurd h' (by omega)) (fun _ => ?_)
    intro rest hs
    have e' : (.kw "sizeof" :: .p .lpar :: (tn t ++ [.p .rpar]) : List Tok) ++ rest = .kw "sizeof" :: .p .lpar :: (tn t ++ .p .rpar :: rest) := by simp
    rw [e']
    refine Y.step (g := fun f => parseAt O 14 f _) (h := fun f => postfixE O f _) (fun f => rfl) ?_
    refine Y.step (h := fun f => primary O f (.kw "sizeof" :: .p .lpar :: (tn t ++ .p .rpar :: rest)) >>= fun z => tails O f z.1 z.2) (fun f => rfl) ?_
    refine Y.bind (x := (.sizeofT t, rest)) ?_ (tails_stop O (hs.mono (by omega)))
    refine Y.step (h := fun f => .ok (.sizeofT t, rest)) ?_ (Y.ret _)
    intro f
    have ho : opensType O (.p .lpar :: (tn t ++ .p .rpar :: rest)) = true := by rw [ea]; exact hty
    rw [primary, if_pos ho]
    simp only [List.tail_cons, hO.read]
    simp only [bind, Except.bind, skip, if_true]
  | _, _, _, .alignofT t => by
    obtain ⟨a, r, ea, hty⟩ := hO.starts t
    have hal : O.isType (.kw "_Alignof") = false := notType O hO (fun _ e => by cases e) (fun _ e => by cases e; exact .inr rfl)
    refine G_of O ⟨⟨_, _, rfl, rfl, hal⟩, fun _ rest => rfl,
      fun h => absurd h (by omega)⟩ (fun h => absurd h (by omega))
      (fun h h' => absurd h' (by omega)) (fun _ => ?_)
    intro rest hs
    have e' : (.kw "_Alignof" :: .p .lpar :: (tn t ++ [.p .rpar]) : List Tok) ++ rest = .kw "_Alignof" :: .p .lpar :: (tn t ++ .p .rpar :: rest) := by simp
    rw [e']
    refine Y.step (g := fun f => parseAt O 14 f _) (h := fun f => postfixE O f _) (fun f => rfl) ?_
    refine Y.step (h := fun f => primary O f (.kw "_Alignof" :: .p .lpar :: (tn t ++ .p .rpar :: rest)) >>= fun z => tails O f z.1 z.2) (fun f => rfl) ?_
    refine Y.bind (x := (.alignofT t, rest)) ?_ (tails_stop O (hs.mono (by omega)))
    refine Y.step (h := fun f => .ok (.alignofT t, rest)) ?_ (Y.ret _)
    intro f
    have ho : opensType O (.p .lpar :: (tn t ++ .p .rpar :: rest)) = true := by rw [ea]; exact hty
    rw [primary, if_pos ho]
    · simp only [List.tail_cons, hO.read]
      simp only [bind, Except.bind, skip, if_true]
  | _, _, _, .labelVal s => by
    refine G_of O ⟨⟨_, _, rfl, rfl, hp _⟩, fun _ rest => rfl,
      fun h => absurd h (by omega)⟩ (fun h => absurd h (by omega))
      (fun h h' => absurd h' (by omega)) (fun _ => ?_)
    intro rest hs
    exact Y.step (g := fun f => parseAt O 14 f _) (h := fun f => .ok (.labelVal s, rest)) (fun f => rfl) (Y.ret _)
  | _, _, _, @Derives.index _ _ _ _ a i sa si da di => by
    have gi := derives_G hO hp di
    refine G_post O (derives_G hO hp da) fun rest y hy => ?_
    have e2 : (.p .lbrk :: (si ++ [.p .rbrk]) : List Tok) ++ rest = .p .lbrk :: (si ++ .p .rbrk :: rest) := by simp
    rw [e2]
    refine Y.step (h := fun f => expr O f (si ++ .p .rbrk :: rest) >>= fun z => skip z.2 .rbrk >>= fun ts => tails O f (.index a z.1) ts)
      (fun f => rfl) ?_
    refine Y.bind (x := (i, Tok.p .rbrk :: rest)) ((gi.ps 0 (by omega) (by omega) _ (stops_p _ (by intro j hj; cases hj))).of_eq fun f => rfl) ?_
    exact Y.skip _ rfl hy
  | _, _, _, @Derives.call _ _ _ _ g as sg sas dg das => by
    refine G_post O (derives_G hO hp dg) fun rest y hy => ?_
    have e2 : (.p .lpar :: (sas ++ [.p .rpar]) : List Tok) ++ rest = .p .lpar :: (sas ++ .p .rpar :: rest) := by simp
    rw [e2]
    refine Y.step (h := fun f => args O f true (sas ++ .p .rpar :: rest) >>= fun z => tails O f (.call g z.1) z.2) (fun f => rfl) ?_
    exact Y.bind (x := (as, rest)) (derives_args hO hp das rest) hy
  | _, _, _, @Derives.member _ _ _ _ e x s de =>
    G_post O (derives_G hO hp de) fun rest y hy => Y.step (h := fun f => tails O f (.member e x) rest) (fun f => rfl) hy
  | _, _, _, @Derives.arrow _ _ _ _ e x s de =>
    G_post O (derives_G hO hp de) fun rest y hy => Y.step (h := fun f => tails O f (.arrow e x) rest) (fun f => rfl) hy
  | _, _, _, @Derives.postinc _ _ _ _ e s de =>
    G_post O (derives_G hO hp de) fun rest y hy => Y.step (h := fun f => tails O f (.postinc e) rest) (fun f => rfl) hy
  | _, _, _, @Derives.postdec _ _ _ _ e s de =>
    G_post O (derives_G hO hp de) fun rest y hy => Y.step (h := fun f => tails O f (.postdec e) rest) (fun f => rfl) hy
  | _, _, _, .plus h _ => absurd h (by decide)
  | _, _, _, .assignTo h _ _ _ => absurd h (by decide)
  | _, _, _, .ofExpr h _ _ => absurd h (by decide)
  | _, _, _, .ofType h _ => absurd h (by decide)
theorem derives_args {tn : T → List Tok} (hO : O.Good tn) (hp : ∀ q : P, O.isType (.p q) = false) : ∀ {first as s}, DerivesArgs O tn false first as s → ∀ rest,
    Y (fun f => args O f first (s ++ .p .rpar :: rest)) (as, rest)
  | _, _, _, .nil first, rest => Y.step (h := fun _ => .ok (.nil, rest)) (fun f => rfl) (Y.ret _)
  | _, _, _, @DerivesArgs.cons _ _ _ _ first e r s u de dr, rest => by
    have ge := derives_G hO hp de
    have gr := derives_args hO hp dr rest
    obtain ⟨x, s', ex, h1, h2⟩ := ge.first.head
    have hx : x ≠ .p .rpar := by rintro rfl; simp [starter] at h1
    refine Y.step (h := fun f => assign O f (s ++ (u ++ .p .rpar :: rest)) >>= fun z =>
      args O f false z.2 >>= fun w => .ok (.cons z.1 w.1, w.2)) ?_ ?_
    · intro f
      cases first with
      | true =>
        have e2 : ((if true then [] else [.p .comma]) ++ s ++ u : List Tok) ++ .p .rpar :: rest = s ++ (u ++ .p .rpar :: rest) := by simp
        rw [e2, args, if_neg]
        · rfl
        · rw [ex]; intro h; injection h with h; exact hx h
      | false =>
        have e2 : ((if false then [] else [.p .comma]) ++ s ++ u : List Tok) ++ .p .rpar :: rest = .p .comma :: (s ++ (u ++ .p .rpar :: rest)) := by simp
        rw [e2, args, if_neg]
        · rfl
        · intro h; injection h with h; cases h
    · refine Y.bind (x := (e, u ++ .p .rpar :: rest)) ((ge.ps 1 (by omega) (by omega) _ ?_).of_eq fun f => rfl) ?_
      · cases dr with
        | nil => exact stops_p _ (by intro j hj; cases hj)
        | cons _ _ => exact stops_p _ (by intro j hj; cases hj; decide)
      · exact Y.bind (x := (r, rest)) gr (Y.ret _)
end

/-! The canonical text of a tree. -/

theorem paren_derives {tn : T → List Tok} {p q : Nat} {t : Tree T} {s : List Tok} {b : Bool} (h : Derives O tn b q t s) (hp : p ≤ 16) : Derives O tn b p t (paren p q s) := by
  unfold paren
  split
  · exact .outer (.par (.outer h (by omega))) hp
  · exact .outer h (by omega)

mutual
theorem print_derives (tn : T → List Tok) (b : Bool) : ∀ (t : Tree T) (p : Nat), t.Ok O → p ≤ 16 → Derives O tn b p t (t.print tn p)
  | .ident _, _, ok, hp => .outer (.ident (.inl ok)) hp
  | .num _, _, _, hp => .outer (.num _) hp
  | .tnum _ _, _, _, hp => .outer (.tnum _ _) hp
  | .str _, _, _, hp => .outer (.str _) hp
  | .bin op l r, _, ok, hp =>
    have := prec_range op
    paren_derives O (.bin (print_derives tn b l _ ok.1 (by omega)) (print_derives tn b r _ ok.2 (by omega))) hp
  | .assign op l r, p, ok, hp => by
    obtain ⟨tk, htk⟩ := Option.isSome_iff_exists.mp ok.1
    have := paren_derives O (.assign htk (print_derives tn b l 14 ok.2.1 (by omega)) (print_derives tn b r 1 ok.2.2 (by omega))) hp
    simpa only [Tree.print, htk, Option.toList, List.append_assoc, List.singleton_append] using this
  | .cond c a e, _, ok, hp =>
    paren_derives O (.cond (print_derives tn b c _ ok.1 (by omega)) (print_derives tn b a _ ok.2.1 (by omega)) (print_derives tn b e _ ok.2.2 (by omega))) hp
  | .elvis c e, _, ok, hp => paren_derives O (.elvis (print_derives tn b c _ ok.1 (by omega)) (print_derives tn b e _ ok.2 (by omega))) hp
  | .comma l r, _, ok, hp => paren_derives O (.comma (print_derives tn b l _ ok.1 (by omega)) (print_derives tn b r _ ok.2 (by omega))) hp
  | .un op e, _, ok, hp => paren_derives O (.un (print_derives tn b e _ ok (by cases op <;> decide))) hp
  | .cast _ e, _, ok, hp => paren_derives O (.cast (print_derives tn b e _ ok (by omega))) hp
  | .sizeofT _, _, _, hp => paren_derives O (.sizeofT _) hp
  | .alignofT _, _, _, hp => paren_derives O (.alignofT _) hp
  | .labelVal _, _, _, hp => paren_derives O (.labelVal _) hp
  | .index a i, _, ok, hp => paren_derives O (.index (print_derives tn b a _ ok.1 (by omega)) (print_derives tn b i _ ok.2 (by omega))) hp
  | .call f as, _, ok, hp => paren_derives O (.call (print_derives tn b f _ ok.1 (by omega)) (print_args tn b as true ok.2)) hp
  | .member e _, _, ok, hp => paren_derives O (.member (print_derives tn b e _ ok (by omega))) hp
  | .arrow e _, _, ok, hp => paren_derives O (.arrow (print_derives tn b e _ ok (by omega))) hp
  | .postinc e, _, ok, hp => paren_derives O (.postinc (print_derives tn b e _ ok (by omega))) hp
  | .postdec e, _, ok, hp => paren_derives O (.postdec (print_derives tn b e _ ok (by omega))) hp
theorem print_args (tn : T → List Tok) (b : Bool) : ∀ (as : Trees T) (first : Bool), as.Ok O → DerivesArgs O tn b first as (as.print tn first)
  | .nil, _, _ => .nil _
  | .cons e r, _, ok => .cons (print_derives tn b e 1 ok.1 (by omega)) (print_args tn b r false ok.2)
end

theorem derives_of_print {tn : T → List Tok} {t : Tree T} {p : Nat} {s : List Tok} (ok : t.Ok O) (e : t.print tn p = s) (hp : p ≤ 16) : Derives O tn false p t s :=
  e ▸ print_derives O tn false t p ok hp

theorem good_sign {tn : T → List Tok} (hO : O.Good tn) (q : P) : O.isType (.p q) = false := notType O hO (fun _ e => by cases e) (fun _ e => by cases e)

/-- C43: tokens that the grammar of C derives as an expression with some tree, followed by anything that does not go on an expression, are parsed as that tree, and the parser stops right
after them. -/
theorem C43_grammar_partial (tn : T → List Tok) (hO : O.Good tn) {t : Tree T} {s : List Tok} (h : Derives O tn false 0 t s) (rest : List Tok)
    (hr : ∀ a r, rest = a :: r → ends a = true) :
    ∃ n, ∀ f, n ≤ f → expr O f (s ++ rest) = .ok (t, rest) :=
  (derives_G O hO (good_sign O hO) h).ps 0 (by omega) (by omega) rest (fun a r e j hj => by
    have := hr a r e
    unfold ends at this
    split at this <;> simp_all [tokLevel])

/-- Assignment expressions (initialisers, arguments) and conditional expressions (constant expressions) likewise, when what follows does not
go on one: in particular, they stop at a comma. -/
theorem C43_assign_grammar (tn : T → List Tok) (hO : O.Good tn) {t : Tree T} {s : List Tok} (rest : List Tok)
    (hr : ∀ a r, rest = a :: r → ends a = true ∨ a = .p .comma) :
    (Derives O tn false 1 t s → ∃ n, ∀ f, n ≤ f → assign O f (s ++ rest) = .ok (t, rest)) ∧
    (Derives O tn false 2 t s → ∃ n, ∀ f, n ≤ f → conditional O f (s ++ rest) = .ok (t, rest)) := by
  have hs : stops 1 rest := fun a r e j hj => by
    rcases hr a r e with h | h
    · unfold ends at h
      split at h <;> simp_all [tokLevel]
    · subst h; cases hj; decide
  exact ⟨fun h => (derives_G O hO (good_sign O hO) h).ps 1 (by omega) (by omega) rest hs,
    fun h => (derives_G O hO (good_sign O hO) h).ps 2 (by omega) (by omega) rest (hs.mono (by omega))⟩

/-- The grammar is unambiguous. -/
theorem C43_unambiguous (tn : T → List Tok) (hO : O.Good tn) {t t' : Tree T} {s : List Tok} (h : Derives O tn false 0 t s) (h' : Derives O tn false 0 t' s) : t = t' := by
  obtain ⟨n, hn⟩ := C43_grammar_partial O tn hO h [] (fun _ _ e => by cases e)
  obtain ⟨m, hm⟩ := C43_grammar_partial O tn hO h' [] (fun _ _ e => by cases e)
  have := (hn (max n m) (by omega)).symm.trans (hm (max n m) (by omega))
  injection this with this
  exact congrArg Prod.fst this

/-- In particular, the tokens of a tree printed with the parentheses the grammar requires are parsed as that tree. -/
theorem C43_round_trip_partial (tn : T → List Tok) (hO : O.Good tn) (t : Tree T) (ok : t.Ok O) (rest : List Tok)
    (hr : ∀ a r, rest = a :: r → ends a = true) :
    ∃ n, ∀ f, n ≤ f → expr O f (t.print tn 0 ++ rest) = .ok (t, rest) :=
  C43_grammar_partial O tn hO (print_derives O tn false t 0 ok (by omega)) rest hr

/-- Violated for unary plus, which leaves no trace in the tree: `+c` is parsed as `c` (so that `sizeof(+c)` is the size of `c`). -/
theorem C43_plus_dropped (tn : T → List Tok) (hO : O.Good tn) {t : Tree T} {s : List Tok} (h : Derives O tn false 13 t s) (rest : List Tok)
    (hr : ∀ a r, rest = a :: r → ends a = true) :
    ∃ n, ∀ f, n ≤ f → unary O f (.p .plus :: (s ++ rest)) = .ok (t, rest) := by
  have h := (derives_G O hO (good_sign O hO) h).ps 13 (by omega) (by omega) rest (fun a r e j hj => by
    have := hr a r e
    unfold ends at this
    split at this <;> simp_all [tokLevel])
  refine Y.step (h := fun f => cast O f (s ++ rest) >>= fun z => .ok (z.1, z.2)) (fun f => rfl) ?_
  exact Y.bind (x := (t, rest)) (h.of_eq fun f => rfl) (Y.ret _)

/-- Type names that are the single keyword `int`. -/
def exO : Oracle Unit where
  isType t := t == .kw "int"
  typename ts := match ts with
    | .kw "int" :: r => .ok ((), r)
    | _ => .error .typename
def exTn : Unit → List Tok := fun _ => [.kw "int"]
theorem exO_good : exO.Good exTn where
  read := fun _ _ => rfl
  starts := fun _ => ⟨_, _, rfl, by decide⟩
  word := fun t h => .inr ⟨"int", by simpa [exO] using h, by decide, by decide⟩

/-- `a = b - (c - d) * -e++ < f(g, (int)h)[i] && x ? y, z : k ^ l & m` -/
def exTree : Tree Unit :=
  let v := Tree.ident (T := Unit)
  .assign none (v "a") (.cond (.bin .land (.bin .lt (.bin .sub (v "b") (.bin .mul (.bin .sub (v "c") (v "d")) (.un .neg (.postinc (v "e")))))
    (.index (.call (v "f") (.cons (v "g") (.cons (.cast () (v "h")) .nil))) (v "i"))) (v "x")) (.comma (v "y") (v "z"))
    (.bin .bxor (v "k") (.bin .band (v "l") (v "m"))))
example : exTree.Ok exO := by simp [exTree, Tree.Ok, Trees.Ok, exO, AOp.tok]
example : exTree.print exTn 0 = [.ident "a", .p .eq, .ident "b", .p .minus, .p .lpar, .ident "c", .p .minus, .ident "d", .p .rpar, .p .star,
    .p .minus, .ident "e", .p .inc, .p .lt, .ident "f", .p .lpar, .ident "g", .p .comma, .p .lpar, .kw "int", .p .rpar, .ident "h",
    .p .rpar, .p .lbrk, .ident "i", .p .rbrk, .p .ampamp, .ident "x", .p .quest, .ident "y", .p .comma, .ident "z", .p .colon,
    .ident "k", .p .caret, .ident "l", .p .amp, .ident "m"] := by decide +kernel

end Toycc.Parse
