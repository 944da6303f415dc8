import Verif.Model.TinyMT

/-!
# What random generators should not do
-/

namespace Litiv.TinyMT

/-- The state of a generator is its status without the highest bit of the first word: 127 bits. -/
def SameState (p q : Gen) : Prop :=
  (∀ i < 31, p.s0.getLsbD i = q.s0.getLsbD i) ∧ p.s1 = q.s1 ∧ p.s2 = q.s2 ∧ p.s3 = q.s3

/-- All bits of the state are zero. -/
def Dead (p : Gen) : Prop := (∀ i < 31, p.s0.getLsbD i = false) ∧ p.s1 = 0#32 ∧ p.s2 = 0#32 ∧ p.s3 = 0#32

end Litiv.TinyMT
