import Verif.Source
/-!
# Reading a source to its end

`drain` is the caller's loop `for { n, err := src.Read(buf); ...; if err != nil { break } }`, used to state what a user
who reads everything gets.
-/

namespace Savior

/-- Read with buffers of `n` bytes until an error (EOF included) is reported; `fuel` bounds the number of calls. The
result is everything delivered and the error, if one came before the fuel ran out. -/
def drain (S : SourceM) {C : Type} (cb : Callback C) (n : Nat) : Nat → S.St → C → (List Byte × Option Err) × S.St × C
  | 0, s, c => (([], none), s, c)
  | f + 1, s, c =>
    let r := S.read cb n s c
    match r.1.2 with
    | some e => ((r.1.1, some e), r.2.1, r.2.2)
    | none => let q := drain S cb n f r.2.1 r.2.2; ((r.1.1 ++ q.1.1, q.1.2), q.2.1, q.2.2)

theorem take_append_drop_eq {α} (l : List α) (a b : Nat) (x y : List α) (hx : x = l.take a) (hxl : x.length = a)
    (hy : y = (l.drop a).take b) : x ++ y = l.take (a + b) := by
  subst hx hy
  rw [← List.take_add]

/-- Draining a lawful source whose consumer does not fail: it ends, with an error; what was delivered is the part of
the stream from the cursor on; all of it if the error is EOF, and then the stream ends cleanly; in a nice environment
all of it in any case, and EOF exactly when the stream ends cleanly. -/
theorem drain_spec {S : SourceM} {Y : List Byte} {clean : Bool} (L : Lawful S Y clean) {C : Type} (cb : Callback C)
    (hcb : ∀ ck c, (cb ck c).2 = none) (n : Nat) (hn : 0 < n) :
    ∀ (fuel : Nat) (s : S.St) (o : Nat) (c : C), L.At s o → L.rank s < fuel →
    ∃ bs e s' c', drain S cb n fuel s c = ((bs, some e), s', c') ∧ bs <+: Y.drop o ∧ e ≠ .panic ∧ e ≠ .diverge ∧
      (e = .eof → bs = Y.drop o ∧ clean = true) ∧ (L.nice → bs = Y.drop o ∧ (e = .eof ↔ clean = true)) := by
  intro fuel
  induction fuel with
  | zero => intro s o c _ h; omega
  | succ f ih =>
    intro s o c hat hr
    obtain ⟨bs, e, s', em, h1, h2, h3, h4, h5, h6, h7⟩ := L.read_spec cb n c hat hn
    have hle := L.at_le hat
    have hpre : bs <+: Y.drop o := by rw [h5]; exact List.take_prefix _ _
    have hfull : o + bs.length = Y.length → bs = Y.drop o := by
      intro hl
      rw [h5]
      exact List.take_of_length_le (by simp; omega)
    unfold drain
    simp only [h1]
    rcases h7 with ⟨a, b, d⟩ | ⟨a, b, d, d2, _⟩ | ⟨ck, x, a, b, _⟩ | ⟨x, a, b, d, d2, d3, d4⟩
    · subst a
      obtain ⟨bs2, e2, s2, c2, g1, g2, g3, g4, g5, g6⟩ := ih s' (o + bs.length) (deliver cb em c) b (by omega)
      simp only [g1]
      have hsplit : Y.drop o = bs ++ Y.drop (o + bs.length) := by
        conv => lhs; rw [← List.take_append_drop bs.length (Y.drop o)]
        rw [List.drop_drop, ← h5]
      refine ⟨_, e2, s2, c2, rfl, ?_, g3, g4, ?_, ?_⟩
      · rw [hsplit]; exact (List.prefix_append_right_inj bs).mpr g2
      · intro he
        rw [hsplit, ← (g5 he).1]
        exact ⟨rfl, (g5 he).2⟩
      · intro hnice
        rw [hsplit, ← (g6 hnice).1]
        exact ⟨rfl, (g6 hnice).2⟩
    · subst a
      exact ⟨bs, _, s', _, rfl, hpre, by simp, by simp, fun _ => ⟨hfull d, d2⟩, fun _ => ⟨hfull d, by simp [d2]⟩⟩
    · rw [hcb] at b; cases b
    · subst a
      refine ⟨bs, x, s', _, rfl, hpre, d, d2, fun h => absurd h b, fun hnice => ?_⟩
      obtain ⟨k1, k2, _⟩ := d4 hnice
      exact ⟨hfull k2, by simp [b, k1]⟩

end Savior
