import Verif.Model.Resolvers
/-
Model of the resolvers of /repo/src/tests/currency_amount.rs, the library's example of layering: currency
symbols, amounts, and amounts of money made from the two.  The attribute types are local to the test, so
`CurrencySymbol` and `CurrencyAmount` are type parameters here, with their constructors as arguments.
Simplified: the `AmountResolver` of the test (lines 31-103) is the text of
/repo/layered-amount/src/amounts.rs:59-127 with another name for the attribute type; its model is
`AmountResolver` of Model/Resolvers.lean.
-/
namespace LNlp
variable {W : World}

/-- `CurrencySymbolResolver::go`, currency_amount.rs:17-28.  `unreachable!()` is a panic of user code. -/
def currencySymbolGo {k : Ty W} (usd euro : Val k) (selection : LLSelection W) :
    R (List (LLCursorAssignment (Val k))) :=
  match selection.findBy (X.tokenHasAny (W := W) Ty.char ['€', '$']) with
  | .error e => .error e
  | .ok found =>
    mapR (fun (st : LLSelection W × Char) =>
      if st.2 = '$' then .ok (st.1.finishWithAttr usd)
      else if st.2 = '€' then .ok (st.1.finishWithAttr euro)
      else .error .user) found

/-- `impl Resolver for CurrencySymbolResolver`, currency_amount.rs:14-29 -/
def currencySymbolResolver {k : Ty W} (usd euro : Val k) : Resolver W :=
  { attr := k
    go := fun sel => match currencySymbolGo usd euro sel with
      | .ok as => .ok (as, false)
      | .error e => .error e }

/-- `CurrencyAmountResolver::go`, currency_amount.rs:113-120 -/
def currencyAmountGo {kSym kAmt k : Ty W} (mk : Val kSym → Val kAmt → Val k) (selection : LLSelection W) :
    R (List (LLCursorAssignment (Val k))) :=
  match selection.findByForwardsAndBackwards (X.seq2 (X.attr kSym) (X.attr kAmt)) with
  | .error e => .error e
  | .ok found => .ok (finishWith found (fun p => mk p.1 p.2))

/-- `impl Resolver for CurrencyAmountResolver`, currency_amount.rs:110-121 -/
def currencyAmountResolver {kSym kAmt k : Ty W} (mk : Val kSym → Val kAmt → Val k) : Resolver W :=
  { attr := k
    go := fun sel => match currencyAmountGo mk sel with
      | .ok as => .ok (as, false)
      | .error e => .error e }

end LNlp
