import Verif.Model.ClassNames
import Verif.Model.Chars

/-! The names of the classes as lists of characters, written by `tools/mkclasses.py`. -/

namespace Pygcode

/-- The characters of `Cls.pyName`. -/
def Cls.nameChars : Cls → List Char
  | .root => chars! "GCode"
  | .definition => chars! "GCodeDefinition"
  | .lineNumber => chars! "GCodeLineNumber"
  | .programName => chars! "GCodeProgramName"
  | .motion => chars! "GCodeMotion"
  | .rapidMove => chars! "GCodeRapidMove"
  | .linearMove => chars! "GCodeLinearMove"
  | .arcMove => chars! "GCodeArcMove"
  | .arcMoveCW => chars! "GCodeArcMoveCW"
  | .arcMoveCCW => chars! "GCodeArcMoveCCW"
  | .dwell => chars! "GCodeDwell"
  | .cublcSpline => chars! "GCodeCublcSpline"
  | .quadraticSpline => chars! "GCodeQuadraticSpline"
  | .nurbs => chars! "GCodeNURBS"
  | .nurbsEnd => chars! "GCodeNURBSEnd"
  | .straightProbe => chars! "GCodeStraightProbe"
  | .spindleSyncMotion => chars! "GCodeSpindleSyncMotion"
  | .rigidTapping => chars! "GCodeRigidTapping"
  | .cancelCannedCycle => chars! "GCodeCancelCannedCycle"
  | .cannedCycle => chars! "GCodeCannedCycle"
  | .drillingCycle => chars! "GCodeDrillingCycle"
  | .drillingCycleDwell => chars! "GCodeDrillingCycleDwell"
  | .drillingCyclePeck => chars! "GCodeDrillingCyclePeck"
  | .drillingCycleChipBreaking => chars! "GCodeDrillingCycleChipBreaking"
  | .boringCycleFeedOut => chars! "GCodeBoringCycleFeedOut"
  | .boringCycleDwellFeedOut => chars! "GCodeBoringCycleDwellFeedOut"
  | .threadingCycle => chars! "GCodeThreadingCycle"
  | .distanceMode => chars! "GCodeDistanceMode"
  | .absoluteDistanceMode => chars! "GCodeAbsoluteDistanceMode"
  | .incrementalDistanceMode => chars! "GCodeIncrementalDistanceMode"
  | .absoluteArcDistanceMode => chars! "GCodeAbsoluteArcDistanceMode"
  | .incrementalArcDistanceMode => chars! "GCodeIncrementalArcDistanceMode"
  | .latheDiameterMode => chars! "GCodeLatheDiameterMode"
  | .latheRadiusMode => chars! "GCodeLatheRadiusMode"
  | .feedRateMode => chars! "GCodeFeedRateMode"
  | .inverseTimeMode => chars! "GCodeInverseTimeMode"
  | .unitsPerMinuteMode => chars! "GCodeUnitsPerMinuteMode"
  | .unitsPerRevolution => chars! "GCodeUnitsPerRevolution"
  | .spindle => chars! "GCodeSpindle"
  | .startSpindle => chars! "GCodeStartSpindle"
  | .startSpindleCW => chars! "GCodeStartSpindleCW"
  | .startSpindleCCW => chars! "GCodeStartSpindleCCW"
  | .stopSpindle => chars! "GCodeStopSpindle"
  | .orientSpindle => chars! "GCodeOrientSpindle"
  | .spindleSpeedMode => chars! "GCodeSpindleSpeedMode"
  | .spindleConstantSurfaceSpeedMode => chars! "GCodeSpindleConstantSurfaceSpeedMode"
  | .spindleRPMMode => chars! "GCodeSpindleRPMMode"
  | .coolant => chars! "GCodeCoolant"
  | .coolantMistOn => chars! "GCodeCoolantMistOn"
  | .coolantFloodOn => chars! "GCodeCoolantFloodOn"
  | .coolantOff => chars! "GCodeCoolantOff"
  | .toolLength => chars! "GCodeToolLength"
  | .toolLengthOffset => chars! "GCodeToolLengthOffset"
  | .dynamicToolLengthOffset => chars! "GCodeDynamicToolLengthOffset"
  | .addToolLengthOffset => chars! "GCodeAddToolLengthOffset"
  | .cancelToolLengthOffset => chars! "GCodeCancelToolLengthOffset"
  | .programControl => chars! "GCodeProgramControl"
  | .pauseProgram => chars! "GCodePauseProgram"
  | .pauseProgramOptional => chars! "GCodePauseProgramOptional"
  | .endProgram => chars! "GCodeEndProgram"
  | .endProgramPalletShuttle => chars! "GCodeEndProgramPalletShuttle"
  | .palletChangePause => chars! "GCodePalletChangePause"
  | .unit => chars! "GCodeUnit"
  | .useInches => chars! "GCodeUseInches"
  | .useMillimeters => chars! "GCodeUseMillimeters"
  | .planeSelect => chars! "GCodePlaneSelect"
  | .selectXYPlane => chars! "GCodeSelectXYPlane"
  | .selectZXPlane => chars! "GCodeSelectZXPlane"
  | .selectYZPlane => chars! "GCodeSelectYZPlane"
  | .selectUVPlane => chars! "GCodeSelectUVPlane"
  | .selectWUPlane => chars! "GCodeSelectWUPlane"
  | .selectVWPlane => chars! "GCodeSelectVWPlane"
  | .cutterRadiusComp => chars! "GCodeCutterRadiusComp"
  | .cutterRadiusCompOff => chars! "GCodeCutterRadiusCompOff"
  | .cutterCompLeft => chars! "GCodeCutterCompLeft"
  | .cutterCompRight => chars! "GCodeCutterCompRight"
  | .dynamicCutterCompLeft => chars! "GCodeDynamicCutterCompLeft"
  | .dynamicCutterCompRight => chars! "GCodeDynamicCutterCompRight"
  | .pathControlMode => chars! "GCodePathControlMode"
  | .exactPathMode => chars! "GCodeExactPathMode"
  | .exactStopMode => chars! "GCodeExactStopMode"
  | .pathBlendingMode => chars! "GCodePathBlendingMode"
  | .cannedReturnMode => chars! "GCodeCannedReturnMode"
  | .cannedCycleReturnPrevLevel => chars! "GCodeCannedCycleReturnPrevLevel"
  | .cannedCycleReturnToR => chars! "GCodeCannedCycleReturnToR"
  | .otherModal => chars! "GCodeOtherModal"
  | .feedRate => chars! "GCodeFeedRate"
  | .spindleSpeed => chars! "GCodeSpindleSpeed"
  | .selectTool => chars! "GCodeSelectTool"
  | .speedAndFeedOverrideOn => chars! "GCodeSpeedAndFeedOverrideOn"
  | .speedAndFeedOverrideOff => chars! "GCodeSpeedAndFeedOverrideOff"
  | .feedOverride => chars! "GCodeFeedOverride"
  | .spindleSpeedOverride => chars! "GCodeSpindleSpeedOverride"
  | .adaptiveFeed => chars! "GCodeAdaptiveFeed"
  | .feedStop => chars! "GCodeFeedStop"
  | .selectCoordinateSystem => chars! "GCodeSelectCoordinateSystem"
  | .selectCoordinateSystem1 => chars! "GCodeSelectCoordinateSystem1"
  | .selectCoordinateSystem2 => chars! "GCodeSelectCoordinateSystem2"
  | .selectCoordinateSystem3 => chars! "GCodeSelectCoordinateSystem3"
  | .selectCoordinateSystem4 => chars! "GCodeSelectCoordinateSystem4"
  | .selectCoordinateSystem5 => chars! "GCodeSelectCoordinateSystem5"
  | .selectCoordinateSystem6 => chars! "GCodeSelectCoordinateSystem6"
  | .selectCoordinateSystem7 => chars! "GCodeSelectCoordinateSystem7"
  | .selectCoordinateSystem8 => chars! "GCodeSelectCoordinateSystem8"
  | .selectCoordinateSystem9 => chars! "GCodeSelectCoordinateSystem9"
  | .io => chars! "GCodeIO"
  | .digitalOutput => chars! "GCodeDigitalOutput"
  | .digitalOutputOnSyncd => chars! "GCodeDigitalOutputOnSyncd"
  | .digitalOutputOffSyncd => chars! "GCodeDigitalOutputOffSyncd"
  | .digitalOutputOn => chars! "GCodeDigitalOutputOn"
  | .digitalOutputOff => chars! "GCodeDigitalOutputOff"
  | .waitOnInput => chars! "GCodeWaitOnInput"
  | .analogOutput => chars! "GCodeAnalogOutput"
  | .analogOutputSyncd => chars! "GCodeAnalogOutputSyncd"
  | .analogOutputImmediate => chars! "GCodeAnalogOutputImmediate"
  | .nonModal => chars! "GCodeNonModal"
  | .toolChange => chars! "GCodeToolChange"
  | .toolSetCurrent => chars! "GCodeToolSetCurrent"
  | .setData => chars! "GCodeSet"
  | .gotoPredefinedPosition => chars! "GCodeGotoPredefinedPosition"
  | .setPredefinedPosition => chars! "GCodeSetPredefinedPosition"
  | .moveInMachineCoords => chars! "GCodeMoveInMachineCoords"
  | .coordSystemOffset => chars! "GCodeCoordSystemOffset"
  | .resetCoordSystemOffset => chars! "GCodeResetCoordSystemOffset"
  | .restoreCoordSystemOffset => chars! "GCodeRestoreCoordSystemOffset"
  | .userDefined => chars! "GCodeUserDefined"

/-- The classes by name. -/
def Cls.byName : List Cls :=
  [.root,
   .absoluteArcDistanceMode,
   .absoluteDistanceMode,
   .adaptiveFeed,
   .addToolLengthOffset,
   .analogOutput,
   .analogOutputImmediate,
   .analogOutputSyncd,
   .arcMove,
   .arcMoveCCW,
   .arcMoveCW,
   .boringCycleDwellFeedOut,
   .boringCycleFeedOut,
   .cancelCannedCycle,
   .cancelToolLengthOffset,
   .cannedCycle,
   .cannedCycleReturnPrevLevel,
   .cannedCycleReturnToR,
   .cannedReturnMode,
   .coolant,
   .coolantFloodOn,
   .coolantMistOn,
   .coolantOff,
   .coordSystemOffset,
   .cublcSpline,
   .cutterCompLeft,
   .cutterCompRight,
   .cutterRadiusComp,
   .cutterRadiusCompOff,
   .definition,
   .digitalOutput,
   .digitalOutputOff,
   .digitalOutputOffSyncd,
   .digitalOutputOn,
   .digitalOutputOnSyncd,
   .distanceMode,
   .drillingCycle,
   .drillingCycleChipBreaking,
   .drillingCycleDwell,
   .drillingCyclePeck,
   .dwell,
   .dynamicCutterCompLeft,
   .dynamicCutterCompRight,
   .dynamicToolLengthOffset,
   .endProgram,
   .endProgramPalletShuttle,
   .exactPathMode,
   .exactStopMode,
   .feedOverride,
   .feedRate,
   .feedRateMode,
   .feedStop,
   .gotoPredefinedPosition,
   .io,
   .incrementalArcDistanceMode,
   .incrementalDistanceMode,
   .inverseTimeMode,
   .latheDiameterMode,
   .latheRadiusMode,
   .lineNumber,
   .linearMove,
   .motion,
   .moveInMachineCoords,
   .nurbs,
   .nurbsEnd,
   .nonModal,
   .orientSpindle,
   .otherModal,
   .palletChangePause,
   .pathBlendingMode,
   .pathControlMode,
   .pauseProgram,
   .pauseProgramOptional,
   .planeSelect,
   .programControl,
   .programName,
   .quadraticSpline,
   .rapidMove,
   .resetCoordSystemOffset,
   .restoreCoordSystemOffset,
   .rigidTapping,
   .selectCoordinateSystem,
   .selectCoordinateSystem1,
   .selectCoordinateSystem2,
   .selectCoordinateSystem3,
   .selectCoordinateSystem4,
   .selectCoordinateSystem5,
   .selectCoordinateSystem6,
   .selectCoordinateSystem7,
   .selectCoordinateSystem8,
   .selectCoordinateSystem9,
   .selectTool,
   .selectUVPlane,
   .selectVWPlane,
   .selectWUPlane,
   .selectXYPlane,
   .selectYZPlane,
   .selectZXPlane,
   .setData,
   .setPredefinedPosition,
   .speedAndFeedOverrideOff,
   .speedAndFeedOverrideOn,
   .spindle,
   .spindleConstantSurfaceSpeedMode,
   .spindleRPMMode,
   .spindleSpeed,
   .spindleSpeedMode,
   .spindleSpeedOverride,
   .spindleSyncMotion,
   .startSpindle,
   .startSpindleCCW,
   .startSpindleCW,
   .stopSpindle,
   .straightProbe,
   .threadingCycle,
   .toolChange,
   .toolLength,
   .toolLengthOffset,
   .toolSetCurrent,
   .unit,
   .unitsPerMinuteMode,
   .unitsPerRevolution,
   .useInches,
   .useMillimeters,
   .userDefined,
   .waitOnInput]

theorem Cls.pyName_toList (c : Cls) : c.pyName.toList = c.nameChars := by
  cases c <;> exact String.toList_ofList

end Pygcode
