import Verif.Model.Words

/-!
# The gcode class hierarchy of `src/pygcode/gcodes.py:140-1357`

Written by `tools/mkclasses.py` from the source text: one constructor per Python class (abstract
base classes included), `own` holds the attributes written in the class body itself, and attribute
access climbs the inheritance chain as Python does (all classes have one base).
-/

namespace Pygcode

/-- The Python classes deriving from `GCode` (and `GCode` itself, `root`), in source order;
`GCodeFooBar` is called `fooBar`. -/
inductive Cls
  | root
  | definition
  | lineNumber
  | programName
  | motion
  | rapidMove
  | linearMove
  | arcMove
  | arcMoveCW
  | arcMoveCCW
  | dwell
  | cublcSpline
  | quadraticSpline
  | nurbs
  | nurbsEnd
  | straightProbe
  | spindleSyncMotion
  | rigidTapping
  | cancelCannedCycle
  | cannedCycle
  | drillingCycle
  | drillingCycleDwell
  | drillingCyclePeck
  | drillingCycleChipBreaking
  | boringCycleFeedOut
  | boringCycleDwellFeedOut
  | threadingCycle
  | distanceMode
  | absoluteDistanceMode
  | incrementalDistanceMode
  | absoluteArcDistanceMode
  | incrementalArcDistanceMode
  | latheDiameterMode
  | latheRadiusMode
  | feedRateMode
  | inverseTimeMode
  | unitsPerMinuteMode
  | unitsPerRevolution
  | spindle
  | startSpindle
  | startSpindleCW
  | startSpindleCCW
  | stopSpindle
  | orientSpindle
  | spindleSpeedMode
  | spindleConstantSurfaceSpeedMode
  | spindleRPMMode
  | coolant
  | coolantMistOn
  | coolantFloodOn
  | coolantOff
  | toolLength
  | toolLengthOffset
  | dynamicToolLengthOffset
  | addToolLengthOffset
  | cancelToolLengthOffset
  | programControl
  | pauseProgram
  | pauseProgramOptional
  | endProgram
  | endProgramPalletShuttle
  | palletChangePause
  | unit
  | useInches
  | useMillimeters
  | planeSelect
  | selectXYPlane
  | selectZXPlane
  | selectYZPlane
  | selectUVPlane
  | selectWUPlane
  | selectVWPlane
  | cutterRadiusComp
  | cutterRadiusCompOff
  | cutterCompLeft
  | cutterCompRight
  | dynamicCutterCompLeft
  | dynamicCutterCompRight
  | pathControlMode
  | exactPathMode
  | exactStopMode
  | pathBlendingMode
  | cannedReturnMode
  | cannedCycleReturnPrevLevel
  | cannedCycleReturnToR
  | otherModal
  | feedRate
  | spindleSpeed
  | selectTool
  | speedAndFeedOverrideOn
  | speedAndFeedOverrideOff
  | feedOverride
  | spindleSpeedOverride
  | adaptiveFeed
  | feedStop
  | selectCoordinateSystem
  | selectCoordinateSystem1
  | selectCoordinateSystem2
  | selectCoordinateSystem3
  | selectCoordinateSystem4
  | selectCoordinateSystem5
  | selectCoordinateSystem6
  | selectCoordinateSystem7
  | selectCoordinateSystem8
  | selectCoordinateSystem9
  | io
  | digitalOutput
  | digitalOutputOnSyncd
  | digitalOutputOffSyncd
  | digitalOutputOn
  | digitalOutputOff
  | waitOnInput
  | analogOutput
  | analogOutputSyncd
  | analogOutputImmediate
  | nonModal
  | toolChange
  | toolSetCurrent
  | setData
  | gotoPredefinedPosition
  | setPredefinedPosition
  | moveInMachineCoords
  | coordSystemOffset
  | resetCoordSystemOffset
  | restoreCoordSystemOffset
  | userDefined
  deriving DecidableEq, Repr

/-- A `word_matches` function. -/
inductive Matcher
  /-- `w.letter == l` -/
  | letter (l : Char)
  /-- `(w.letter == l) and (lo <= w.value <= hi)` -/
  | range (l : Char) (lo hi : ℚ)
  /-- `(w.letter == l) and (w.value in vs)` -/
  | oneOf (l : Char) (vs : List ℚ)
  deriving DecidableEq

/-- What `_process` does to a machine (see `Machine.lean`). -/
inductive Proc
  /-- nothing: gcodes.py:339-341, 465-466 -/
  | nothing
  /-- gcodes.py:403-404 -/
  | motion
  /-- gcodes.py:411-412 -/
  | rapid
  /-- gcodes.py:525-526 -/
  | cancel
  /-- gcodes.py:545-561 -/
  | canned
  deriving DecidableEq, Repr

/-- Attributes assigned in a class body; `none` = not assigned there (inherited). -/
structure Own where
  /-- `word_key` (letter and value) -/
  wordKey : Option (Char × ℚ) := none
  /-- `default_word` -/
  defaultWord : Option (Char × ℚ) := none
  /-- `word_matches` -/
  matcher : Option Matcher := none
  /-- `word_letter` -/
  letter : Option Char := none
  /-- `word_value_configurable` -/
  configurable : Option Bool := none
  /-- `param_letters` -/
  params : Option (List Char) := none
  /-- `modal_param_letters` -/
  modalParams : Option (List Char) := none
  /-- `modal_group` (`some none` = set to `None`) -/
  group : Option (Option ℕ) := none
  /-- `exec_order` -/
  order : Option ℕ := none
  /-- `_process` -/
  proc : Option Proc := none
  /-- `assert_params` is the one of `GCodeArcMove` (gcodes.py:424-445) -/
  checksArc : Option Bool := none
  /-- `coord_system_id` -/
  coordSys : Option ℕ := none
  /-- `unit_id` -/
  unitId : Option ℕ := none
  /-- `normal_axis` -/
  normalAxis : Option Char := none
  /-- `plane_axes` -/
  planeAxes : Option (List Char) := none

namespace Cls

/-- The base class (the class statements of gcodes.py:140-1357). -/
def parent : Cls → Option Cls
  | .root => none
  | .definition => some .root
  | .lineNumber => some .definition
  | .programName => some .definition
  | .motion => some .root
  | .rapidMove => some .motion
  | .linearMove => some .motion
  | .arcMove => some .motion
  | .arcMoveCW => some .arcMove
  | .arcMoveCCW => some .arcMove
  | .dwell => some .motion
  | .cublcSpline => some .motion
  | .quadraticSpline => some .motion
  | .nurbs => some .motion
  | .nurbsEnd => some .nurbs
  | .straightProbe => some .motion
  | .spindleSyncMotion => some .motion
  | .rigidTapping => some .motion
  | .cancelCannedCycle => some .motion
  | .cannedCycle => some .root
  | .drillingCycle => some .cannedCycle
  | .drillingCycleDwell => some .cannedCycle
  | .drillingCyclePeck => some .cannedCycle
  | .drillingCycleChipBreaking => some .cannedCycle
  | .boringCycleFeedOut => some .cannedCycle
  | .boringCycleDwellFeedOut => some .cannedCycle
  | .threadingCycle => some .cannedCycle
  | .distanceMode => some .root
  | .absoluteDistanceMode => some .distanceMode
  | .incrementalDistanceMode => some .distanceMode
  | .absoluteArcDistanceMode => some .distanceMode
  | .incrementalArcDistanceMode => some .distanceMode
  | .latheDiameterMode => some .distanceMode
  | .latheRadiusMode => some .distanceMode
  | .feedRateMode => some .root
  | .inverseTimeMode => some .feedRateMode
  | .unitsPerMinuteMode => some .feedRateMode
  | .unitsPerRevolution => some .feedRateMode
  | .spindle => some .root
  | .startSpindle => some .spindle
  | .startSpindleCW => some .startSpindle
  | .startSpindleCCW => some .startSpindle
  | .stopSpindle => some .spindle
  | .orientSpindle => some .spindle
  | .spindleSpeedMode => some .spindle
  | .spindleConstantSurfaceSpeedMode => some .spindleSpeedMode
  | .spindleRPMMode => some .spindleSpeedMode
  | .coolant => some .root
  | .coolantMistOn => some .coolant
  | .coolantFloodOn => some .coolant
  | .coolantOff => some .coolant
  | .toolLength => some .root
  | .toolLengthOffset => some .toolLength
  | .dynamicToolLengthOffset => some .toolLength
  | .addToolLengthOffset => some .toolLength
  | .cancelToolLengthOffset => some .toolLength
  | .programControl => some .root
  | .pauseProgram => some .programControl
  | .pauseProgramOptional => some .programControl
  | .endProgram => some .programControl
  | .endProgramPalletShuttle => some .programControl
  | .palletChangePause => some .programControl
  | .unit => some .root
  | .useInches => some .unit
  | .useMillimeters => some .unit
  | .planeSelect => some .root
  | .selectXYPlane => some .planeSelect
  | .selectZXPlane => some .planeSelect
  | .selectYZPlane => some .planeSelect
  | .selectUVPlane => some .planeSelect
  | .selectWUPlane => some .planeSelect
  | .selectVWPlane => some .planeSelect
  | .cutterRadiusComp => some .root
  | .cutterRadiusCompOff => some .cutterRadiusComp
  | .cutterCompLeft => some .cutterRadiusComp
  | .cutterCompRight => some .cutterRadiusComp
  | .dynamicCutterCompLeft => some .cutterRadiusComp
  | .dynamicCutterCompRight => some .cutterRadiusComp
  | .pathControlMode => some .root
  | .exactPathMode => some .pathControlMode
  | .exactStopMode => some .pathControlMode
  | .pathBlendingMode => some .pathControlMode
  | .cannedReturnMode => some .root
  | .cannedCycleReturnPrevLevel => some .cannedReturnMode
  | .cannedCycleReturnToR => some .cannedReturnMode
  | .otherModal => some .root
  | .feedRate => some .otherModal
  | .spindleSpeed => some .otherModal
  | .selectTool => some .otherModal
  | .speedAndFeedOverrideOn => some .otherModal
  | .speedAndFeedOverrideOff => some .otherModal
  | .feedOverride => some .otherModal
  | .spindleSpeedOverride => some .otherModal
  | .adaptiveFeed => some .otherModal
  | .feedStop => some .otherModal
  | .selectCoordinateSystem => some .otherModal
  | .selectCoordinateSystem1 => some .selectCoordinateSystem
  | .selectCoordinateSystem2 => some .selectCoordinateSystem
  | .selectCoordinateSystem3 => some .selectCoordinateSystem
  | .selectCoordinateSystem4 => some .selectCoordinateSystem
  | .selectCoordinateSystem5 => some .selectCoordinateSystem
  | .selectCoordinateSystem6 => some .selectCoordinateSystem
  | .selectCoordinateSystem7 => some .selectCoordinateSystem
  | .selectCoordinateSystem8 => some .selectCoordinateSystem
  | .selectCoordinateSystem9 => some .selectCoordinateSystem
  | .io => some .root
  | .digitalOutput => some .io
  | .digitalOutputOnSyncd => some .digitalOutput
  | .digitalOutputOffSyncd => some .digitalOutput
  | .digitalOutputOn => some .digitalOutput
  | .digitalOutputOff => some .digitalOutput
  | .waitOnInput => some .io
  | .analogOutput => some .io
  | .analogOutputSyncd => some .analogOutput
  | .analogOutputImmediate => some .analogOutput
  | .nonModal => some .root
  | .toolChange => some .nonModal
  | .toolSetCurrent => some .nonModal
  | .setData => some .nonModal
  | .gotoPredefinedPosition => some .nonModal
  | .setPredefinedPosition => some .nonModal
  | .moveInMachineCoords => some .nonModal
  | .coordSystemOffset => some .nonModal
  | .resetCoordSystemOffset => some .nonModal
  | .restoreCoordSystemOffset => some .nonModal
  | .userDefined => some .nonModal

/-- Class bodies; the numbers are lines of gcodes.py. -/
def own : Cls → Own
  -- 140-341 GCode
  | .root =>
    { letter := some 'G'
      configurable := some false
      params := some []
      group := some none
      modalParams := some []
      order := some 999
      checksArc := some false
      proc := some .nothing }
  -- 349-350 GCodeDefinition
  | .definition => {}
  -- 353-365 GCodeLineNumber
  | .lineNumber =>
    { letter := some 'N'
      configurable := some true
      order := some 0
      matcher := some (.letter 'N') }
  -- 368-380 GCodeProgramName
  | .programName =>
    { letter := some 'O'
      configurable := some true
      order := some 1
      matcher := some (.letter 'O') }
  -- 398-404 GCodeMotion
  | .motion =>
    { params := some ['A', 'B', 'C', 'U', 'V', 'W', 'X', 'Y', 'Z']
      group := some (some 1)
      order := some 242
      proc := some .motion }
  -- 407-412 GCodeRapidMove
  | .rapidMove =>
    { wordKey := some ('G', 0)
      proc := some .rapid }
  -- 415-417 GCodeLinearMove
  | .linearMove =>
    { wordKey := some ('G', 1) }
  -- 420-445 GCodeArcMove
  | .arcMove =>
    { params := some ['A', 'B', 'C', 'I', 'J', 'K', 'P', 'R', 'U', 'V', 'W', 'X', 'Y', 'Z']
      checksArc := some true }
  -- 448-450 GCodeArcMoveCW
  | .arcMoveCW =>
    { wordKey := some ('G', 2) }
  -- 453-455 GCodeArcMoveCCW
  | .arcMoveCCW =>
    { wordKey := some ('G', 3) }
  -- 458-466 GCodeDwell
  | .dwell =>
    { params := some ['P']
      wordKey := some ('G', 4)
      group := some none
      order := some 140
      proc := some .nothing }
  -- 469-472 GCodeCublcSpline
  | .cublcSpline =>
    { params := some ['A', 'B', 'C', 'I', 'J', 'P', 'Q', 'U', 'V', 'W', 'X', 'Y', 'Z']
      wordKey := some ('G', 5) }
  -- 475-478 GCodeQuadraticSpline
  | .quadraticSpline =>
    { params := some ['A', 'B', 'C', 'I', 'J', 'U', 'V', 'W', 'X', 'Y', 'Z']
      wordKey := some ('G', 51 / 10) }
  -- 481-484 GCodeNURBS
  | .nurbs =>
    { params := some ['A', 'B', 'C', 'L', 'P', 'U', 'V', 'W', 'X', 'Y', 'Z']
      wordKey := some ('G', 26 / 5) }
  -- 487-489 GCodeNURBSEnd
  | .nurbsEnd =>
    { wordKey := some ('G', 53 / 10) }
  -- 492-497 GCodeStraightProbe
  | .straightProbe =>
    { matcher := some (.range 'G' (191 / 5) (77 / 2))
      defaultWord := some ('G', 191 / 5) }
  -- 500-503 GCodeSpindleSyncMotion
  | .spindleSyncMotion =>
    { params := some ['A', 'B', 'C', 'K', 'U', 'V', 'W', 'X', 'Y', 'Z']
      wordKey := some ('G', 33) }
  -- 506-509 GCodeRigidTapping
  | .rigidTapping =>
    { params := some ['A', 'B', 'C', 'K', 'U', 'V', 'W', 'X', 'Y', 'Z']
      wordKey := some ('G', 331 / 10) }
  -- 512-526 GCodeCancelCannedCycle
  | .cancelCannedCycle =>
    { wordKey := some ('G', 80)
      group := some none
      order := some 241
      proc := some .cancel }
  -- 540-561 GCodeCannedCycle
  | .cannedCycle =>
    { params := some ['U', 'V', 'W', 'X', 'Y', 'Z']
      group := some (some 1)
      order := some 242
      proc := some .canned }
  -- 564-568 GCodeDrillingCycle
  | .drillingCycle =>
    { params := some ['L', 'P', 'R', 'U', 'V', 'W', 'X', 'Y', 'Z']
      wordKey := some ('G', 81)
      modalParams := some ['P', 'R', 'U', 'V', 'W', 'X', 'Y', 'Z'] }
  -- 571-575 GCodeDrillingCycleDwell
  | .drillingCycleDwell =>
    { params := some ['L', 'P', 'R', 'U', 'V', 'W', 'X', 'Y', 'Z']
      wordKey := some ('G', 82)
      modalParams := some ['P', 'R', 'U', 'V', 'W', 'X', 'Y', 'Z'] }
  -- 578-582 GCodeDrillingCyclePeck
  | .drillingCyclePeck =>
    { params := some ['L', 'Q', 'R', 'U', 'V', 'W', 'X', 'Y', 'Z']
      wordKey := some ('G', 83)
      modalParams := some ['Q', 'R', 'U', 'V', 'W', 'X', 'Y', 'Z'] }
  -- 585-589 GCodeDrillingCycleChipBreaking
  | .drillingCycleChipBreaking =>
    { params := some ['L', 'Q', 'R', 'U', 'V', 'W', 'X', 'Y', 'Z']
      wordKey := some ('G', 73)
      modalParams := some ['Q', 'R', 'U', 'V', 'W', 'X', 'Y', 'Z'] }
  -- 592-596 GCodeBoringCycleFeedOut
  | .boringCycleFeedOut =>
    { params := some ['L', 'P', 'R', 'U', 'V', 'W', 'X', 'Y', 'Z']
      wordKey := some ('G', 85)
      modalParams := some ['P', 'R', 'U', 'V', 'W', 'X', 'Y', 'Z'] }
  -- 599-603 GCodeBoringCycleDwellFeedOut
  | .boringCycleDwellFeedOut =>
    { params := some ['L', 'P', 'R', 'U', 'V', 'W', 'X', 'Y', 'Z']
      wordKey := some ('G', 89)
      modalParams := some ['P', 'R', 'U', 'V', 'W', 'X', 'Y', 'Z'] }
  -- 606-609 GCodeThreadingCycle
  | .threadingCycle =>
    { params := some ['E', 'H', 'I', 'J', 'K', 'L', 'P', 'Q', 'R', 'U', 'V', 'W', 'X', 'Y', 'Z']
      wordKey := some ('G', 76) }
  -- 619-620 GCodeDistanceMode
  | .distanceMode =>
    { order := some 210 }
  -- 623-626 GCodeAbsoluteDistanceMode
  | .absoluteDistanceMode =>
    { wordKey := some ('G', 90)
      group := some (some 3) }
  -- 629-632 GCodeIncrementalDistanceMode
  | .incrementalDistanceMode =>
    { wordKey := some ('G', 91)
      group := some (some 3) }
  -- 635-638 GCodeAbsoluteArcDistanceMode
  | .absoluteArcDistanceMode =>
    { wordKey := some ('G', 901 / 10)
      group := some (some 4) }
  -- 641-644 GCodeIncrementalArcDistanceMode
  | .incrementalArcDistanceMode =>
    { wordKey := some ('G', 911 / 10)
      group := some (some 4) }
  -- 647-650 GCodeLatheDiameterMode
  | .latheDiameterMode =>
    { wordKey := some ('G', 7)
      group := some (some 15) }
  -- 653-656 GCodeLatheRadiusMode
  | .latheRadiusMode =>
    { wordKey := some ('G', 8)
      group := some (some 15) }
  -- 663-665 GCodeFeedRateMode
  | .feedRateMode =>
    { group := some (some 5)
      order := some 30 }
  -- 668-670 GCodeInverseTimeMode
  | .inverseTimeMode =>
    { wordKey := some ('G', 93) }
  -- 673-675 GCodeUnitsPerMinuteMode
  | .unitsPerMinuteMode =>
    { wordKey := some ('G', 94) }
  -- 678-680 GCodeUnitsPerRevolution
  | .unitsPerRevolution =>
    { wordKey := some ('G', 95) }
  -- 689-691 GCodeSpindle
  | .spindle =>
    { letter := some 'M'
      order := some 90 }
  -- 694-696 GCodeStartSpindle
  | .startSpindle =>
    { group := some (some 107) }
  -- 699-702 GCodeStartSpindleCW
  | .startSpindleCW =>
    { wordKey := some ('M', 3) }
  -- 704-707 GCodeStartSpindleCCW
  | .startSpindleCCW =>
    { wordKey := some ('M', 4) }
  -- 710-714 GCodeStopSpindle
  | .stopSpindle =>
    { wordKey := some ('M', 5)
      group := some (some 107) }
  -- 717-719 GCodeOrientSpindle
  | .orientSpindle =>
    { wordKey := some ('M', 19) }
  -- 722-724 GCodeSpindleSpeedMode
  | .spindleSpeedMode =>
    { letter := some 'G'
      group := some (some 14) }
  -- 727-730 GCodeSpindleConstantSurfaceSpeedMode
  | .spindleConstantSurfaceSpeedMode =>
    { params := some ['D', 'S']
      wordKey := some ('G', 96) }
  -- 733-736 GCodeSpindleRPMMode
  | .spindleRPMMode =>
    { params := some ['D']
      wordKey := some ('G', 97) }
  -- 744-747 GCodeCoolant
  | .coolant =>
    { letter := some 'M'
      group := some (some 108)
      order := some 110 }
  -- 750-752 GCodeCoolantMistOn
  | .coolantMistOn =>
    { wordKey := some ('M', 7) }
  -- 755-757 GCodeCoolantFloodOn
  | .coolantFloodOn =>
    { wordKey := some ('M', 8) }
  -- 760-762 GCodeCoolantOff
  | .coolantOff =>
    { wordKey := some ('M', 9) }
  -- 772-774 GCodeToolLength
  | .toolLength =>
    { group := some (some 8)
      order := some 180 }
  -- 777-780 GCodeToolLengthOffset
  | .toolLengthOffset =>
    { params := some ['H']
      wordKey := some ('G', 43) }
  -- 783-785 GCodeDynamicToolLengthOffset
  | .dynamicToolLengthOffset =>
    { wordKey := some ('G', 431 / 10) }
  -- 788-791 GCodeAddToolLengthOffset
  | .addToolLengthOffset =>
    { params := some ['H']
      wordKey := some ('G', 216 / 5) }
  -- 794-796 GCodeCancelToolLengthOffset
  | .cancelToolLengthOffset =>
    { wordKey := some ('G', 49) }
  -- 805-808 GCodeProgramControl
  | .programControl =>
    { letter := some 'M'
      group := some (some 104)
      order := some 250 }
  -- 810-812 GCodePauseProgram
  | .pauseProgram =>
    { wordKey := some ('M', 0) }
  -- 815-817 GCodePauseProgramOptional
  | .pauseProgramOptional =>
    { wordKey := some ('M', 1) }
  -- 820-822 GCodeEndProgram
  | .endProgram =>
    { wordKey := some ('M', 2) }
  -- 825-827 GCodeEndProgramPalletShuttle
  | .endProgramPalletShuttle =>
    { wordKey := some ('M', 30) }
  -- 830-832 GCodePalletChangePause
  | .palletChangePause =>
    { wordKey := some ('M', 60) }
  -- 839-841 GCodeUnit
  | .unit =>
    { group := some (some 6)
      order := some 160 }
  -- 844-847 GCodeUseInches
  | .useInches =>
    { wordKey := some ('G', 20)
      unitId := some 0 }
  -- 850-853 GCodeUseMillimeters
  | .useMillimeters =>
    { wordKey := some ('G', 21)
      unitId := some 1 }
  -- 861-882 GCodePlaneSelect
  | .planeSelect =>
    { group := some (some 2)
      order := some 150 }
  -- 885-891 GCodeSelectXYPlane
  | .selectXYPlane =>
    { wordKey := some ('G', 17)
      normalAxis := some 'Z'
      planeAxes := some ['X', 'Y'] }
  -- 894-903 GCodeSelectZXPlane
  | .selectZXPlane =>
    { wordKey := some ('G', 18)
      normalAxis := some 'Y'
      planeAxes := some ['X', 'Z'] }
  -- 906-915 GCodeSelectYZPlane
  | .selectYZPlane =>
    { wordKey := some ('G', 19)
      normalAxis := some 'X'
      planeAxes := some ['Y', 'Z'] }
  -- 918-920 GCodeSelectUVPlane
  | .selectUVPlane =>
    { wordKey := some ('G', 171 / 10) }
  -- 923-925 GCodeSelectWUPlane
  | .selectWUPlane =>
    { wordKey := some ('G', 181 / 10) }
  -- 928-930 GCodeSelectVWPlane
  | .selectVWPlane =>
    { wordKey := some ('G', 191 / 10) }
  -- 939-941 GCodeCutterRadiusComp
  | .cutterRadiusComp =>
    { group := some (some 7)
      order := some 170 }
  -- 944-946 GCodeCutterRadiusCompOff
  | .cutterRadiusCompOff =>
    { wordKey := some ('G', 40) }
  -- 949-952 GCodeCutterCompLeft
  | .cutterCompLeft =>
    { params := some ['D']
      wordKey := some ('G', 41) }
  -- 955-958 GCodeCutterCompRight
  | .cutterCompRight =>
    { params := some ['D']
      wordKey := some ('G', 42) }
  -- 961-964 GCodeDynamicCutterCompLeft
  | .dynamicCutterCompLeft =>
    { params := some ['D', 'L']
      wordKey := some ('G', 411 / 10) }
  -- 967-970 GCodeDynamicCutterCompRight
  | .dynamicCutterCompRight =>
    { params := some ['D', 'L']
      wordKey := some ('G', 421 / 10) }
  -- 978-980 GCodePathControlMode
  | .pathControlMode =>
    { group := some (some 13)
      order := some 200 }
  -- 983-985 GCodeExactPathMode
  | .exactPathMode =>
    { wordKey := some ('G', 61) }
  -- 988-990 GCodeExactStopMode
  | .exactStopMode =>
    { wordKey := some ('G', 611 / 10) }
  -- 993-996 GCodePathBlendingMode
  | .pathBlendingMode =>
    { params := some ['P', 'Q']
      wordKey := some ('G', 64) }
  -- 1004-1006 GCodeCannedReturnMode
  | .cannedReturnMode =>
    { group := some (some 10)
      order := some 220 }
  -- 1009-1012 GCodeCannedCycleReturnPrevLevel
  | .cannedCycleReturnPrevLevel =>
    { wordKey := some ('G', 98) }
  -- 1015-1018 GCodeCannedCycleReturnToR
  | .cannedCycleReturnToR =>
    { wordKey := some ('G', 99) }
  -- 1033-1034 GCodeOtherModal
  | .otherModal => {}
  -- 1037-1046 GCodeFeedRate
  | .feedRate =>
    { letter := some 'F'
      configurable := some true
      matcher := some (.letter 'F')
      defaultWord := some ('F', 0)
      group := some (some 201)
      order := some 40 }
  -- 1049-1059 GCodeSpindleSpeed
  | .spindleSpeed =>
    { letter := some 'S'
      configurable := some true
      matcher := some (.letter 'S')
      defaultWord := some ('S', 0)
      group := some (some 202)
      order := some 50 }
  -- 1062-1072 GCodeSelectTool
  | .selectTool =>
    { letter := some 'T'
      configurable := some true
      matcher := some (.letter 'T')
      defaultWord := some ('T', 0)
      group := some (some 203)
      order := some 60 }
  -- 1075-1080 GCodeSpeedAndFeedOverrideOn
  | .speedAndFeedOverrideOn =>
    { letter := some 'M'
      wordKey := some ('M', 48)
      group := some (some 109)
      order := some 120 }
  -- 1083-1088 GCodeSpeedAndFeedOverrideOff
  | .speedAndFeedOverrideOff =>
    { letter := some 'M'
      wordKey := some ('M', 49)
      group := some (some 109)
      order := some 120 }
  -- 1091-1096 GCodeFeedOverride
  | .feedOverride =>
    { letter := some 'M'
      params := some ['P']
      wordKey := some ('M', 50)
      order := some 120 }
  -- 1099-1104 GCodeSpindleSpeedOverride
  | .spindleSpeedOverride =>
    { letter := some 'M'
      params := some ['P']
      wordKey := some ('M', 51)
      order := some 120 }
  -- 1107-1112 GCodeAdaptiveFeed
  | .adaptiveFeed =>
    { letter := some 'M'
      params := some ['P']
      wordKey := some ('M', 52)
      order := some 120 }
  -- 1115-1120 GCodeFeedStop
  | .feedStop =>
    { letter := some 'M'
      params := some ['P']
      wordKey := some ('M', 53)
      order := some 120 }
  -- 1123-1127 GCodeSelectCoordinateSystem
  | .selectCoordinateSystem =>
    { group := some (some 12)
      order := some 190 }
  -- 1130-1133 GCodeSelectCoordinateSystem1
  | .selectCoordinateSystem1 =>
    { wordKey := some ('G', 54)
      coordSys := some 1 }
  -- 1136-1139 GCodeSelectCoordinateSystem2
  | .selectCoordinateSystem2 =>
    { wordKey := some ('G', 55)
      coordSys := some 2 }
  -- 1142-1145 GCodeSelectCoordinateSystem3
  | .selectCoordinateSystem3 =>
    { wordKey := some ('G', 56)
      coordSys := some 3 }
  -- 1148-1151 GCodeSelectCoordinateSystem4
  | .selectCoordinateSystem4 =>
    { wordKey := some ('G', 57)
      coordSys := some 4 }
  -- 1154-1157 GCodeSelectCoordinateSystem5
  | .selectCoordinateSystem5 =>
    { wordKey := some ('G', 58)
      coordSys := some 5 }
  -- 1160-1163 GCodeSelectCoordinateSystem6
  | .selectCoordinateSystem6 =>
    { wordKey := some ('G', 59)
      coordSys := some 6 }
  -- 1166-1169 GCodeSelectCoordinateSystem7
  | .selectCoordinateSystem7 =>
    { coordSys := some 7
      wordKey := some ('G', 591 / 10) }
  -- 1172-1175 GCodeSelectCoordinateSystem8
  | .selectCoordinateSystem8 =>
    { wordKey := some ('G', 296 / 5)
      coordSys := some 8 }
  -- 1178-1181 GCodeSelectCoordinateSystem9
  | .selectCoordinateSystem9 =>
    { wordKey := some ('G', 593 / 10)
      coordSys := some 9 }
  -- 1205-1207 GCodeIO
  | .io =>
    { letter := some 'M'
      order := some 70 }
  -- 1210-1212 GCodeDigitalOutput
  | .digitalOutput =>
    { params := some ['P'] }
  -- 1215-1217 GCodeDigitalOutputOnSyncd
  | .digitalOutputOnSyncd =>
    { wordKey := some ('M', 62) }
  -- 1220-1222 GCodeDigitalOutputOffSyncd
  | .digitalOutputOffSyncd =>
    { wordKey := some ('M', 63) }
  -- 1225-1227 GCodeDigitalOutputOn
  | .digitalOutputOn =>
    { wordKey := some ('M', 64) }
  -- 1230-1232 GCodeDigitalOutputOff
  | .digitalOutputOff =>
    { wordKey := some ('M', 65) }
  -- 1235-1238 GCodeWaitOnInput
  | .waitOnInput =>
    { params := some ['E', 'L', 'P', 'Q']
      wordKey := some ('M', 66) }
  -- 1241-1243 GCodeAnalogOutput
  | .analogOutput =>
    { params := some ['T'] }
  -- 1246-1248 GCodeAnalogOutputSyncd
  | .analogOutputSyncd =>
    { wordKey := some ('M', 67) }
  -- 1251-1253 GCodeAnalogOutputImmediate
  | .analogOutputImmediate =>
    { wordKey := some ('M', 68) }
  -- 1273-1274 GCodeNonModal
  | .nonModal => {}
  -- 1277-1282 GCodeToolChange
  | .toolChange =>
    { params := some ['T']
      wordKey := some ('M', 6)
      letter := some 'M'
      order := some 80 }
  -- 1285-1290 GCodeToolSetCurrent
  | .toolSetCurrent =>
    { params := some ['Q']
      wordKey := some ('M', 61)
      letter := some 'M'
      order := some 80 }
  -- 1293-1297 GCodeSet
  | .setData =>
    { params := some ['A', 'B', 'C', 'L', 'P', 'Q', 'R', 'X', 'Y', 'Z']
      wordKey := some ('G', 10)
      order := some 230 }
  -- 1300-1306 GCodeGotoPredefinedPosition
  | .gotoPredefinedPosition =>
    { matcher := some (.oneOf 'G' [28, 30])
      defaultWord := some ('G', 28)
      order := some 230 }
  -- 1309-1315 GCodeSetPredefinedPosition
  | .setPredefinedPosition =>
    { matcher := some (.oneOf 'G' [281 / 10, 301 / 10])
      defaultWord := some ('G', 281 / 10)
      order := some 230 }
  -- 1318-1321 GCodeMoveInMachineCoords
  | .moveInMachineCoords =>
    { wordKey := some ('G', 53)
      order := some 240 }
  -- 1324-1327 GCodeCoordSystemOffset
  | .coordSystemOffset =>
    { wordKey := some ('G', 92)
      order := some 230 }
  -- 1330-1336 GCodeResetCoordSystemOffset
  | .resetCoordSystemOffset =>
    { matcher := some (.oneOf 'G' [921 / 10, 461 / 5])
      defaultWord := some ('G', 921 / 10)
      order := some 230 }
  -- 1341-1344 GCodeRestoreCoordSystemOffset
  | .restoreCoordSystemOffset =>
    { wordKey := some ('G', 923 / 10)
      order := some 230 }
  -- 1347-1357 GCodeUserDefined
  | .userDefined =>
    { letter := some 'M'
      params := some ['P', 'Q']
      order := some 130
      group := some (some 110) }

/-- All classes, in the order of `_subclasses(GCode)` (gcodes.py:1362-1378): depth first, siblings
by name. -/
def all : List Cls :=
  [.root,
   .cannedCycle,
   .boringCycleDwellFeedOut,
   .boringCycleFeedOut,
   .drillingCycle,
   .drillingCycleChipBreaking,
   .drillingCycleDwell,
   .drillingCyclePeck,
   .threadingCycle,
   .cannedReturnMode,
   .cannedCycleReturnPrevLevel,
   .cannedCycleReturnToR,
   .coolant,
   .coolantFloodOn,
   .coolantMistOn,
   .coolantOff,
   .cutterRadiusComp,
   .cutterCompLeft,
   .cutterCompRight,
   .cutterRadiusCompOff,
   .dynamicCutterCompLeft,
   .dynamicCutterCompRight,
   .definition,
   .lineNumber,
   .programName,
   .distanceMode,
   .absoluteArcDistanceMode,
   .absoluteDistanceMode,
   .incrementalArcDistanceMode,
   .incrementalDistanceMode,
   .latheDiameterMode,
   .latheRadiusMode,
   .feedRateMode,
   .inverseTimeMode,
   .unitsPerMinuteMode,
   .unitsPerRevolution,
   .io,
   .analogOutput,
   .analogOutputImmediate,
   .analogOutputSyncd,
   .digitalOutput,
   .digitalOutputOff,
   .digitalOutputOffSyncd,
   .digitalOutputOn,
   .digitalOutputOnSyncd,
   .waitOnInput,
   .motion,
   .arcMove,
   .arcMoveCCW,
   .arcMoveCW,
   .cancelCannedCycle,
   .cublcSpline,
   .dwell,
   .linearMove,
   .nurbs,
   .nurbsEnd,
   .quadraticSpline,
   .rapidMove,
   .rigidTapping,
   .spindleSyncMotion,
   .straightProbe,
   .nonModal,
   .coordSystemOffset,
   .gotoPredefinedPosition,
   .moveInMachineCoords,
   .resetCoordSystemOffset,
   .restoreCoordSystemOffset,
   .setData,
   .setPredefinedPosition,
   .toolChange,
   .toolSetCurrent,
   .userDefined,
   .otherModal,
   .adaptiveFeed,
   .feedOverride,
   .feedRate,
   .feedStop,
   .selectCoordinateSystem,
   .selectCoordinateSystem1,
   .selectCoordinateSystem2,
   .selectCoordinateSystem3,
   .selectCoordinateSystem4,
   .selectCoordinateSystem5,
   .selectCoordinateSystem6,
   .selectCoordinateSystem7,
   .selectCoordinateSystem8,
   .selectCoordinateSystem9,
   .selectTool,
   .speedAndFeedOverrideOff,
   .speedAndFeedOverrideOn,
   .spindleSpeed,
   .spindleSpeedOverride,
   .pathControlMode,
   .exactPathMode,
   .exactStopMode,
   .pathBlendingMode,
   .planeSelect,
   .selectUVPlane,
   .selectVWPlane,
   .selectWUPlane,
   .selectXYPlane,
   .selectYZPlane,
   .selectZXPlane,
   .programControl,
   .endProgram,
   .endProgramPalletShuttle,
   .palletChangePause,
   .pauseProgram,
   .pauseProgramOptional,
   .spindle,
   .orientSpindle,
   .spindleSpeedMode,
   .spindleConstantSurfaceSpeedMode,
   .spindleRPMMode,
   .startSpindle,
   .startSpindleCCW,
   .startSpindleCW,
   .stopSpindle,
   .toolLength,
   .addToolLengthOffset,
   .cancelToolLengthOffset,
   .dynamicToolLengthOffset,
   .toolLengthOffset,
   .unit,
   .useInches,
   .useMillimeters]

end Cls

end Pygcode
