import Verif.Data.Model
namespace Verif.Data

theorem Real.eq_sound {a b : Real} (h : a.eq b = true) : a = b := by
  cases a <;> cases b <;> simp_all [Real.eq]

theorem Real.eq_comm (a b : Real) : a.eq b = b.eq a := by
  cases a <;> cases b <;> simp [Real.eq, Bool.beq_comm]

mutual
theorem Data.eq_sound : ∀ {a b : Data}, a.eq b = true → a = b
  | .none, b, h => by cases b <;> simp_all [Data.eq]
  | .bool _, b, h => by cases b <;> simp_all [Data.eq]
  | .int _, b, h => by cases b <;> simp_all [Data.eq]
  | .count _, b, h => by cases b <;> simp_all [Data.eq]
  | .real _, b, h => by
    cases b <;> simp_all [Data.eq]
    exact Real.eq_sound h
  | .duration _, b, h => by cases b <;> simp_all [Data.eq]
  | .time _, b, h => by cases b <;> simp_all [Data.eq]
  | .string _, b, h => by cases b <;> simp_all [Data.eq]
  | .pattern _, b, h => by cases b <;> simp_all [Data.eq]
  | .address _, b, h => by cases b <;> simp_all [Data.eq]
  | .subnet _, b, h => by cases b <;> simp_all [Data.eq]
  | .enum _, b, h => by cases b <;> simp_all [Data.eq]
  | .list xs, b, h => by
    cases b <;> simp [Data.eq] at h
    rw [Data.eqList_sound h]
  | .map k v, b, h => by
    cases b <;> simp [Data.eq] at h
    rw [Data.eqList_sound h.1, Data.eqList_sound h.2]
  | .record n v, b, h => by
    cases b <;> simp [Data.eq] at h
    rw [h.1, Data.eqList_sound h.2]

theorem Data.eqList_sound : ∀ {xs ys : List Data}, Data.eqList xs ys = true → xs = ys
  | [], ys, h => by cases ys <;> simp_all [Data.eqList]
  | x :: xs, ys, h => by
    cases ys with
    | nil => simp [Data.eqList] at h
    | cons y ys =>
      simp [Data.eqList] at h
      rw [Data.eq_sound h.1, Data.eqList_sound h.2]
end

mutual
theorem Data.eq_comm : ∀ (a b : Data), a.eq b = b.eq a
  | .none, b => by cases b <;> simp [Data.eq]
  | .bool _, b => by cases b <;> simp [Data.eq, Bool.beq_comm]
  | .int _, b => by cases b <;> simp [Data.eq, Bool.beq_comm]
  | .count _, b => by cases b <;> simp [Data.eq, Bool.beq_comm]
  | .real _, b => by cases b <;> simp [Data.eq, Real.eq_comm]
  | .duration _, b => by cases b <;> simp [Data.eq, Bool.beq_comm]
  | .time _, b => by cases b <;> simp [Data.eq, Bool.beq_comm]
  | .string _, b => by cases b <;> simp [Data.eq, Bool.beq_comm]
  | .pattern _, b => by cases b <;> simp [Data.eq, Bool.beq_comm]
  | .address _, b => by cases b <;> simp [Data.eq, Bool.beq_comm]
  | .subnet _, b => by cases b <;> simp [Data.eq, Bool.beq_comm]
  | .enum _, b => by cases b <;> simp [Data.eq, Bool.beq_comm]
  | .list xs, b => by
    cases b <;> simp [Data.eq]
    exact Data.eqList_comm _ _
  | .map k v, b => by
    cases b <;> simp [Data.eq]
    rw [Data.eqList_comm k, Data.eqList_comm v]
  | .record n v, b => by
    cases b <;> simp [Data.eq]
    rw [Data.eqList_comm v, Bool.beq_comm]

theorem Data.eqList_comm : ∀ (xs ys : List Data), Data.eqList xs ys = Data.eqList ys xs
  | [], ys => by cases ys <;> simp [Data.eqList]
  | x :: xs, ys => by
    cases ys with
    | nil => simp [Data.eqList]
    | cons y ys => simp [Data.eqList, Data.eq_comm x y, Data.eqList_comm xs ys]
end

theorem evalStringAndPattern_comm (R : Regex) (a b : Data) :
    evalStringAndPattern R a b = evalStringAndPattern R b a := by
  cases a <;> cases b <;> rfl

theorem checkIn_eq (R : Regex) (a b : Data) : checkIn R a b = evalIn R a b := by
  cases a <;> cases b <;> simp [checkIn, evalIn, Data.eq_comm]

end Verif.Data
