import Verif.ModelBase

/-!
# Specification vocabulary for scalar intervals

Independent of the arithmetic model: only the endpoints and the class of an interval are used.
-/

set_option autoImplicit false

namespace IntvalPy

variable {K : Type*} [LinearOrder K]

/-- A point belongs to an interval when it lies between its endpoints. -/
instance Iv.instMembership : Membership K (Iv K) := ⟨fun X x => X.a ≤ x ∧ x ≤ X.b⟩

theorem Iv.mem_def {X : Iv K} {x : K} : x ∈ X ↔ X.a ≤ x ∧ x ≤ X.b := Iff.rfl

namespace Spec

/-- An ordinary interval: reported as classical and ordered. -/
def Ordinary (X : Iv K) : Prop := X.cls = .classical ∧ X.a ≤ X.b

/-- Class invariant: whatever is reported as classical is ordered. -/
def WF (X : Iv K) : Prop := X.cls = .classical → X.a ≤ X.b

/-- `X` and `Y` have the same endpoints (class ignored). -/
def SameEnds (X Y : Iv K) : Prop := X.a = Y.a ∧ X.b = Y.b

/-- `X` encloses the set `S`. -/
def Encloses (X : Iv K) (S : K → Prop) : Prop := ∀ s, S s → s ∈ X

/-- `X` is exactly the interval hull of `S`: it encloses `S` and both endpoints belong to `S`. -/
def IsRange (X : Iv K) (S : K → Prop) : Prop := Encloses X S ∧ S X.a ∧ S X.b

/-- Inclusion of intervals as point sets. -/
def Sub (X Y : Iv K) : Prop := ∀ s, s ∈ X → s ∈ Y

end Spec
end IntvalPy
