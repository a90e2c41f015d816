import Verif.Strings.EnumModel

/-! # The tables of the enumerated types

Written by `tools/gen_enums.py` from `/repo/dal/auto/MG_*_enum.hpp` and `MG_*_enum.inc`. -/

namespace Dal.Strings

/-- `MG_BizDayConvention_enum.hpp` 6–13, `MG_BizDayConvention_enum.inc`: `String` 25–30, reading 45–52, listing 11–13. -/
def bizDayConventionTable : EnumTable where
  values := [
    "Unadjusted".toList, "Following".toList, "ModifiedFollowing".toList]
  printed := [
    ("Unadjusted".toList, "Unadjusted".toList), ("Following".toList, "Following".toList), ("ModifiedFollowing".toList, "ModifiedFollowing".toList)]
  reads := [
    ("UNADJUSTED".toList, "Unadjusted".toList), ("FOLLOWING".toList, "Following".toList), ("MODIFIEDFOLLOWING".toList, "ModifiedFollowing".toList)]
  listed := [
    .value "Unadjusted".toList, .value "Following".toList, .value "ModifiedFollowing".toList]

/-- `MG_Ccy_enum.hpp` 6–18, `MG_Ccy_enum.inc`: `String` 30–45, reading 60–82, listing 11–18. -/
def ccyTable : EnumTable where
  values := [
    "USD".toList, "EUR".toList, "GBP".toList, "JPY".toList, "AUD".toList, "CHF".toList, "CAD".toList, "CNY".toList]
  printed := [
    ("USD".toList, "USD".toList), ("EUR".toList, "EUR".toList), ("GBP".toList, "GBP".toList), ("JPY".toList, "JPY".toList),
    ("AUD".toList, "AUD".toList), ("CHF".toList, "CHF".toList), ("CAD".toList, "CAD".toList), ("CNY".toList, "CNY".toList)]
  reads := [
    ("USD".toList, "USD".toList), ("EUR".toList, "EUR".toList), ("GBP".toList, "GBP".toList), ("JPY".toList, "JPY".toList),
    ("AUD".toList, "AUD".toList), ("CHF".toList, "CHF".toList), ("CAD".toList, "CAD".toList), ("CNY".toList, "CNY".toList)]
  listed := [
    .value "USD".toList, .value "EUR".toList, .value "GBP".toList, .value "JPY".toList, .value "AUD".toList, .value "CHF".toList,
    .value "CAD".toList, .value "CNY".toList]

/-- `MG_Clearer_enum.hpp` 6–12, `MG_Clearer_enum.inc`: `String` 24–27, reading 42–46, listing 11–12. -/
def clearerTable : EnumTable where
  values := [
    "CME".toList, "LCH".toList]
  printed := [
    ("CME".toList, "CME".toList), ("LCH".toList, "LCH".toList)]
  reads := [
    ("CME".toList, "CME".toList), ("LCH".toList, "LCH".toList)]
  listed := [
    .value "CME".toList, .value "LCH".toList]

/-- `MG_CollateralType_enum.hpp` 6–13, `MG_CollateralType_enum.inc`: `String` 25–30, reading 45–52, listing 11–13. -/
def collateralTypeTable : EnumTable where
  values := [
    "OIS".toList, "GC".toList, "NONE".toList]
  printed := [
    ("OIS".toList, "OIS".toList), ("GC".toList, "GC".toList), ("NONE".toList, "NONE".toList)]
  reads := [
    ("OIS".toList, "OIS".toList), ("GC".toList, "GC".toList), ("NONE".toList, "NONE".toList)]
  listed := [
    .value "OIS".toList, .value "GC".toList, .value "NONE".toList]

/-- `MG_DateGeneration_enum.hpp` 6–12, `MG_DateGeneration_enum.inc`: `String` 24–27, reading 42–46, listing 11–12. -/
def dateGenerationTable : EnumTable where
  values := [
    "Backward".toList, "Forward".toList]
  printed := [
    ("Backward".toList, "Backward".toList), ("Forward".toList, "Forward".toList)]
  reads := [
    ("BACKWARD".toList, "Backward".toList), ("FORWARD".toList, "Forward".toList)]
  listed := [
    .value "Backward".toList, .value "Forward".toList]

/-- `MG_DateStepSize_enum.hpp` 5–14, `MG_DateStepSize_enum.inc`: `String` 27–36, reading 51–84, listing 11–15. -/
def dateStepSizeTable : EnumTable where
  values := [
    "Y".toList, "M".toList, "W".toList, "BD".toList, "CD".toList]
  printed := [
    ("Y".toList, "Y".toList), ("M".toList, "M".toList), ("W".toList, "W".toList), ("BD".toList, "BD".toList), ("CD".toList, "CD".toList)]
  reads := [
    ("Y".toList, "Y".toList), ("YEAR".toList, "Y".toList), ("YEARS".toList, "Y".toList), ("M".toList, "M".toList), ("MONTH".toList, "M".toList),
    ("MONTHS".toList, "M".toList), ("W".toList, "W".toList), ("WEEK".toList, "W".toList), ("WEEKS".toList, "W".toList), ("BD".toList, "BD".toList),
    ("BUSDAY".toList, "BD".toList), ("BUSINESSDAY".toList, "BD".toList), ("CD".toList, "CD".toList), ("CALDAY".toList, "CD".toList),
    ("CALENDARDAY".toList, "CD".toList)]
  listed := [
    .text "Y".toList, .text "M".toList, .text "W".toList, .text "BD".toList, .text "CD".toList]

/-- `MG_DayBasis_enum.hpp` 5–15, `MG_DayBasis_enum.inc`: `String` 70–79, reading 95–134, listing 40–44. -/
def dayBasisTable : EnumTable where
  values := [
    "ACT_365F".toList, "ACT_365L".toList, "ACT_360".toList, "ACT_ACT".toList, "BOND".toList]
  printed := [
    ("ACT_365F".toList, "ACT_365F".toList), ("ACT_365L".toList, "ACT_365L".toList), ("ACT_360".toList, "ACT_360".toList),
    ("ACT_ACT".toList, "ACT_ACT".toList), ("BOND".toList, "BOND".toList)]
  reads := [
    ("ACT365F".toList, "ACT_365F".toList), ("ACT/365F".toList, "ACT_365F".toList), ("ACT365FIXED".toList, "ACT_365F".toList),
    ("ACT/365FIXED".toList, "ACT_365F".toList), ("ACT365L".toList, "ACT_365L".toList), ("ACT/365L".toList, "ACT_365L".toList),
    ("ISMAYEAR".toList, "ACT_365L".toList), ("ACT360".toList, "ACT_360".toList), ("ACT/360".toList, "ACT_360".toList),
    ("MONEY".toList, "ACT_360".toList), ("ACTUAL/360".toList, "ACT_360".toList), ("ACTACT".toList, "ACT_ACT".toList),
    ("ACT/ACT".toList, "ACT_ACT".toList), ("ACTUAL/ACTUAL".toList, "ACT_ACT".toList), ("BOND".toList, "BOND".toList),
    ("30360".toList, "BOND".toList), ("30/360".toList, "BOND".toList), ("30360US".toList, "BOND".toList)]
  listed := [
    .text "ACT_365F".toList, .text "ACT_365L".toList, .text "ACT_360".toList, .text "ACT_ACT".toList, .text "BOND".toList]

/-- `MG_DomainCondProp_enum.hpp` 6–13, `MG_DomainCondProp_enum.inc`: `String` 25–30, reading 45–52, listing 11–13. -/
def domainCondPropTable : EnumTable where
  values := [
    "AlwaysTrue".toList, "AlwaysFalse".toList, "TrueOrFalse".toList]
  printed := [
    ("AlwaysTrue".toList, "AlwaysTrue".toList), ("AlwaysFalse".toList, "AlwaysFalse".toList), ("TrueOrFalse".toList, "TrueOrFalse".toList)]
  reads := [
    ("ALWAYSTRUE".toList, "AlwaysTrue".toList), ("ALWAYSFALSE".toList, "AlwaysFalse".toList), ("TRUEORFALSE".toList, "TrueOrFalse".toList)]
  listed := [
    .value "AlwaysTrue".toList, .value "AlwaysFalse".toList, .value "TrueOrFalse".toList]

/-- `MG_NodeType_enum.hpp` 6–49, `MG_NodeType_enum.inc`: `String` 61–138, reading 153–268, listing 11–49. -/
def nodeTypeTable : EnumTable where
  values := [
    "Add".toList, "AddConst".toList, "Sub".toList, "SubConst".toList, "ConstSub".toList, "Mult".toList, "MultConst".toList, "Div".toList,
    "DivConst".toList, "ConstDiv".toList, "Pow".toList, "PowConst".toList, "ConstPow".toList, "Max2".toList, "Max2Const".toList, "Min2".toList,
    "Min2Const".toList, "Spot".toList, "Var".toList, "Const".toList, "Assign".toList, "AssignConst".toList, "Pays".toList, "PaysConst".toList,
    "If".toList, "IfElse".toList, "Equal".toList, "Sup".toList, "SupEqual".toList, "And".toList, "Or".toList, "Smooth".toList, "Sqrt".toList,
    "Log".toList, "Not".toList, "Uminus".toList, "True".toList, "False".toList, "ConstVar".toList]
  printed := [
    ("Add".toList, "Add".toList), ("AddConst".toList, "AddConst".toList), ("Sub".toList, "Sub".toList), ("SubConst".toList, "SubConst".toList),
    ("ConstSub".toList, "ConstSub".toList), ("Mult".toList, "Mult".toList), ("MultConst".toList, "MultConst".toList), ("Div".toList, "Div".toList),
    ("DivConst".toList, "DivConst".toList), ("ConstDiv".toList, "ConstDiv".toList), ("Pow".toList, "Pow".toList),
    ("PowConst".toList, "PowConst".toList), ("ConstPow".toList, "ConstPow".toList), ("Max2".toList, "Max2".toList),
    ("Max2Const".toList, "Max2Const".toList), ("Min2".toList, "Min2".toList), ("Min2Const".toList, "Min2Const".toList),
    ("Spot".toList, "Spot".toList), ("Var".toList, "Var".toList), ("Const".toList, "Const".toList), ("Assign".toList, "Assign".toList),
    ("AssignConst".toList, "AssignConst".toList), ("Pays".toList, "Pays".toList), ("PaysConst".toList, "PaysConst".toList),
    ("If".toList, "If".toList), ("IfElse".toList, "IfElse".toList), ("Equal".toList, "Equal".toList), ("Sup".toList, "Sup".toList),
    ("SupEqual".toList, "SupEqual".toList), ("And".toList, "And".toList), ("Or".toList, "Or".toList), ("Smooth".toList, "Smooth".toList),
    ("Sqrt".toList, "Sqrt".toList), ("Log".toList, "Log".toList), ("Not".toList, "Not".toList), ("Uminus".toList, "Uminus".toList),
    ("True".toList, "True".toList), ("False".toList, "False".toList), ("ConstVar".toList, "ConstVar".toList)]
  reads := [
    ("ADD".toList, "Add".toList), ("ADDCONST".toList, "AddConst".toList), ("SUB".toList, "Sub".toList), ("SUBCONST".toList, "SubConst".toList),
    ("CONSTSUB".toList, "ConstSub".toList), ("MULT".toList, "Mult".toList), ("MULTCONST".toList, "MultConst".toList), ("DIV".toList, "Div".toList),
    ("DIVCONST".toList, "DivConst".toList), ("CONSTDIV".toList, "ConstDiv".toList), ("POW".toList, "Pow".toList),
    ("POWCONST".toList, "PowConst".toList), ("CONSTPOW".toList, "ConstPow".toList), ("MAX2".toList, "Max2".toList),
    ("MAX2CONST".toList, "Max2Const".toList), ("MIN2".toList, "Min2".toList), ("MIN2CONST".toList, "Min2Const".toList),
    ("SPOT".toList, "Spot".toList), ("VAR".toList, "Var".toList), ("CONST".toList, "Const".toList), ("ASSIGN".toList, "Assign".toList),
    ("ASSIGNCONST".toList, "AssignConst".toList), ("PAYS".toList, "Pays".toList), ("PAYSCONST".toList, "PaysConst".toList),
    ("IF".toList, "If".toList), ("IFELSE".toList, "IfElse".toList), ("EQUAL".toList, "Equal".toList), ("SUP".toList, "Sup".toList),
    ("SUPEQUAL".toList, "SupEqual".toList), ("AND".toList, "And".toList), ("OR".toList, "Or".toList), ("SMOOTH".toList, "Smooth".toList),
    ("SQRT".toList, "Sqrt".toList), ("LOG".toList, "Log".toList), ("NOT".toList, "Not".toList), ("UMINUS".toList, "Uminus".toList),
    ("TRUE".toList, "True".toList), ("FALSE".toList, "False".toList), ("CONSTVAR".toList, "ConstVar".toList)]
  listed := [
    .value "Add".toList, .value "AddConst".toList, .value "Sub".toList, .value "SubConst".toList, .value "ConstSub".toList, .value "Mult".toList,
    .value "MultConst".toList, .value "Div".toList, .value "DivConst".toList, .value "ConstDiv".toList, .value "Pow".toList,
    .value "PowConst".toList, .value "ConstPow".toList, .value "Max2".toList, .value "Max2Const".toList, .value "Min2".toList,
    .value "Min2Const".toList, .value "Spot".toList, .value "Var".toList, .value "Const".toList, .value "Assign".toList, .value "AssignConst".toList,
    .value "Pays".toList, .value "PaysConst".toList, .value "If".toList, .value "IfElse".toList, .value "Equal".toList, .value "Sup".toList,
    .value "SupEqual".toList, .value "And".toList, .value "Or".toList, .value "Smooth".toList, .value "Sqrt".toList, .value "Log".toList,
    .value "Not".toList, .value "Uminus".toList, .value "True".toList, .value "False".toList, .value "ConstVar".toList]

/-- `MG_OptionType_enum.hpp` 6–13, `MG_OptionType_enum.inc`: `String` 25–30, reading 45–60, listing 11–13. -/
def optionTypeTable : EnumTable where
  values := [
    "CALL".toList, "PUT".toList, "STRADDLE".toList]
  printed := [
    ("CALL".toList, "CALL".toList), ("PUT".toList, "PUT".toList), ("STRADDLE".toList, "STRADDLE".toList)]
  reads := [
    ("CALL".toList, "CALL".toList), ("C".toList, "CALL".toList), ("PUT".toList, "PUT".toList), ("P".toList, "PUT".toList),
    ("STRADDLE".toList, "STRADDLE".toList), ("V".toList, "STRADDLE".toList), ("C+P".toList, "STRADDLE".toList)]
  listed := [
    .value "CALL".toList, .value "PUT".toList, .value "STRADDLE".toList]

/-- `MG_PeriodLength_enum.hpp` 5–13, `MG_PeriodLength_enum.inc`: `String` 26–33, reading 48–68, listing 11–14. -/
def periodLengthTable : EnumTable where
  values := [
    "ANNUAL".toList, "SEMIANNUAL".toList, "QUARTERLY".toList, "MONTHLY".toList]
  printed := [
    ("ANNUAL".toList, "ANNUAL".toList), ("SEMIANNUAL".toList, "SEMIANNUAL".toList), ("QUARTERLY".toList, "QUARTERLY".toList),
    ("MONTHLY".toList, "MONTHLY".toList)]
  reads := [
    ("ANNUAL".toList, "ANNUAL".toList), ("12M".toList, "ANNUAL".toList), ("SEMIANNUAL".toList, "SEMIANNUAL".toList),
    ("SEMI".toList, "SEMIANNUAL".toList), ("6M".toList, "SEMIANNUAL".toList), ("QUARTERLY".toList, "QUARTERLY".toList),
    ("3M".toList, "QUARTERLY".toList), ("MONTHLY".toList, "MONTHLY".toList), ("1M".toList, "MONTHLY".toList)]
  listed := [
    .text "ANNUAL".toList, .text "SEMIANNUAL".toList, .text "QUARTERLY".toList, .text "MONTHLY".toList]

/-- `MG_RNGType_enum.hpp` 5–11, `MG_RNGType_enum.inc`: `String` 24–27, reading 42–50, listing 11–12. -/
def rNGTypeTable : EnumTable where
  values := [
    "IRN".toList, "MRG32".toList]
  printed := [
    ("IRN".toList, "IRN".toList), ("MRG32".toList, "MRG32".toList)]
  reads := [
    ("IRN".toList, "IRN".toList), ("SHUFFLEDIRN".toList, "IRN".toList), ("MRG32".toList, "MRG32".toList), ("MRG32K32A".toList, "MRG32".toList)]
  listed := [
    .text "IRN".toList, .text "MRG32".toList]

/-- `MG_RepositoryErase_enum.hpp` 6–14, `MG_RepositoryErase_enum.inc`: `String` 26–33, reading 48–58, listing 11–14. -/
def repositoryEraseTable : EnumTable where
  values := [
    "NONE".toList, "NAME_NONEMPTY".toList, "NAME".toList, "TYPE".toList]
  printed := [
    ("NONE".toList, "NONE".toList), ("NAME_NONEMPTY".toList, "NAME_NONEMPTY".toList), ("NAME".toList, "NAME".toList), ("TYPE".toList, "TYPE".toList)]
  reads := [
    ("NONE".toList, "NONE".toList), ("NAMENONEMPTY".toList, "NAME_NONEMPTY".toList), ("NAME".toList, "NAME".toList), ("TYPE".toList, "TYPE".toList)]
  listed := [
    .value "NONE".toList, .value "NAME_NONEMPTY".toList, .value "NAME".toList, .value "TYPE".toList]

/-- `MG_SpecialDay_enum.hpp` 5–13, `MG_SpecialDay_enum.inc`: `String` 26–33, reading 48–68, listing 11–14. -/
def specialDayTable : EnumTable where
  values := [
    "IMM".toList, "IMM1".toList, "CDS".toList, "EOM".toList]
  printed := [
    ("IMM".toList, "IMM".toList), ("IMM1".toList, "IMM1".toList), ("CDS".toList, "CDS".toList), ("EOM".toList, "EOM".toList)]
  reads := [
    ("IMM".toList, "IMM".toList), ("IMM3".toList, "IMM".toList), ("IMMQUARTERLY".toList, "IMM".toList), ("IMM1".toList, "IMM1".toList),
    ("IMMMONTHLY".toList, "IMM1".toList), ("CDS".toList, "CDS".toList), ("CDS3".toList, "CDS".toList), ("CDSQUARTERLY".toList, "CDS".toList),
    ("EOM".toList, "EOM".toList)]
  listed := [
    .text "IMM".toList, .text "IMM1".toList, .text "CDS".toList, .text "EOM".toList]

/-- `MG_TradedRate_enum.hpp` 6–15, `MG_TradedRate_enum.inc`: `String` 27–36, reading 51–64, listing 11–15. -/
def tradedRateTable : EnumTable where
  values := [
    "LIBOR_3M_CME".toList, "LIBOR_3M_LCH".toList, "LIBOR_3M_FUT".toList, "LIBOR_6M_CME".toList, "LIBOR_6M_LCH".toList]
  printed := [
    ("LIBOR_3M_CME".toList, "LIBOR_3M_CME".toList), ("LIBOR_3M_LCH".toList, "LIBOR_3M_LCH".toList), ("LIBOR_3M_FUT".toList, "LIBOR_3M_FUT".toList),
    ("LIBOR_6M_CME".toList, "LIBOR_6M_CME".toList), ("LIBOR_6M_LCH".toList, "LIBOR_6M_LCH".toList)]
  reads := [
    ("LIBOR3MCME".toList, "LIBOR_3M_CME".toList), ("LIBOR3MLCH".toList, "LIBOR_3M_LCH".toList), ("LIBOR3MFUT".toList, "LIBOR_3M_FUT".toList),
    ("LIBOR6MCME".toList, "LIBOR_6M_CME".toList), ("LIBOR6MLCH".toList, "LIBOR_6M_LCH".toList)]
  listed := [
    .value "LIBOR_3M_CME".toList, .value "LIBOR_3M_LCH".toList, .value "LIBOR_3M_FUT".toList, .value "LIBOR_6M_CME".toList,
    .value "LIBOR_6M_LCH".toList]

/-- All of them. -/
def allTables : List EnumTable :=
    [bizDayConventionTable, ccyTable, clearerTable, collateralTypeTable, dateGenerationTable, dateStepSizeTable, dayBasisTable, domainCondPropTable,
   nodeTypeTable, optionTypeTable, periodLengthTable, rNGTypeTable, repositoryEraseTable, specialDayTable, tradedRateTable]

end Dal.Strings
