import Verif.Model.Chars

/-!
# The listings written in `src/pygcode/__init__.py`, copied by `tools/mkclasses.py`

Data for the statements of `Props/Listing.lean`: nothing here is taken from the model.
-/

namespace Pygcode

namespace Listings

set_option maxRecDepth 10000 in
/-- The comment lines of __init__.py:198-323, said to be the output of
`_gcode_class_infostr(prefix='    # ')` (__init__.py:197). -/
def comment : List (List Char) :=
  [chars! "    #       - GCode:",
   chars! "    #         - GCodeCannedCycle:",
   chars! "    # G89       - GCodeBoringCycleDwellFeedOut: G89: Boring Cycle, Dwell, Feed Out",
   chars! "    # G85       - GCodeBoringCycleFeedOut: G85: Boring Cycle, Feed Out",
   chars! "    # G81       - GCodeDrillingCycle: G81: Drilling Cycle",
   chars! "    # G73       - GCodeDrillingCycleChipBreaking: G73: Drilling Cycle, ChipBreaking",
   chars! "    # G82       - GCodeDrillingCycleDwell: G82: Drilling Cycle, Dwell",
   chars! "    # G83       - GCodeDrillingCyclePeck: G83: Drilling Cycle, Peck",
   chars! "    # G76       - GCodeThreadingCycle: G76: Threading Cycle",
   chars! "    #         - GCodeCannedReturnMode:",
   chars! "    # G98       - GCodeCannedCycleReturnPrevLevel: G98: Canned Cycle Return to the level set prior to cycle start",
   chars! "    # G99       - GCodeCannedCycleReturnToR: G99: Canned Cycle Return to the level set by R",
   chars! "    #         - GCodeCoolant:",
   chars! "    # M08       - GCodeCoolantFloodOn: M8: turn flood coolant on",
   chars! "    # M07       - GCodeCoolantMistOn: M7: turn mist coolant on",
   chars! "    # M09       - GCodeCoolantOff: M9: turn all coolant off",
   chars! "    #         - GCodeCutterRadiusComp:",
   chars! "    # G41       - GCodeCutterCompLeft: G41: Cutter Radius Compensation (left)",
   chars! "    # G42       - GCodeCutterCompRight: G42: Cutter Radius Compensation (right)",
   chars! "    # G40       - GCodeCutterRadiusCompOff: G40: Cutter Radius Compensation Off",
   chars! "    # G41.1     - GCodeDynamicCutterCompLeft: G41.1: Dynamic Cutter Radius Compensation (left)",
   chars! "    # G42.1     - GCodeDynamicCutterCompRight: G42.1: Dynamic Cutter Radius Compensation (right)",
   chars! "    #         - GCodeDefinition:",
   chars! "    #           - GCodeLineNumber: N: Line Number",
   chars! "    #           - GCodeProgramName: O: Program Name",
   chars! "    #         - GCodeDistanceMode:",
   chars! "    # G90.1     - GCodeAbsoluteArcDistanceMode: G90.1: Absolute Distance Mode for Arc IJK Parameters",
   chars! "    # G90       - GCodeAbsoluteDistanceMode: G90: Absolute Distance Mode",
   chars! "    # G91.1     - GCodeIncrementalArcDistanceMode: G91.1: Incremental Distance Mode for Arc IJK Parameters",
   chars! "    # G91       - GCodeIncrementalDistanceMode: G91: Incremental Distance Mode",
   chars! "    # G07       - GCodeLatheDiameterMode: G7: Lathe Diameter Mode",
   chars! "    # G08       - GCodeLatheRadiusMode: G8: Lathe Radius Mode",
   chars! "    #         - GCodeFeedRateMode:",
   chars! "    # G93       - GCodeInverseTimeMode: G93: Inverse Time Mode",
   chars! "    # G94       - GCodeUnitsPerMinuteMode: G94: Units Per MinuteMode",
   chars! "    # G95       - GCodeUnitsPerRevolution: G95: Units Per Revolution",
   chars! "    #         - GCodeIO:",
   chars! "    #           - GCodeAnalogOutput: Analog Output",
   chars! "    # M68         - GCodeAnalogOutputImmediate: M68: Analog Output, Immediate",
   chars! "    # M67         - GCodeAnalogOutputSyncd: M67: Analog Output, Synchronized",
   chars! "    #           - GCodeDigitalOutput: Digital Output Control",
   chars! "    # M65         - GCodeDigitalOutputOff: M65: turn off digital output immediately",
   chars! "    # M63         - GCodeDigitalOutputOffSyncd: M63: turn off digital output synchronized with motion",
   chars! "    # M64         - GCodeDigitalOutputOn: M64: turn on digital output immediately",
   chars! "    # M62         - GCodeDigitalOutputOnSyncd: M62: turn on digital output synchronized with motion",
   chars! "    # M66       - GCodeWaitOnInput: M66: Wait on Input",
   chars! "    #         - GCodeMotion:",
   chars! "    #           - GCodeArcMove: Arc Move",
   chars! "    # G03         - GCodeArcMoveCCW: G3: Arc Move (counter-clockwise)",
   chars! "    # G02         - GCodeArcMoveCW: G2: Arc Move (clockwise)",
   chars! "    # G80       - GCodeCancelCannedCycle: G80: Cancel Canned Cycle",
   chars! "    # G05       - GCodeCublcSpline: G5: Cubic Spline",
   chars! "    # G04       - GCodeDwell: G4: Dwell",
   chars! "    # G01       - GCodeLinearMove: G1: Linear Move",
   chars! "    # G05.2     - GCodeNURBS: G5.2: Non-uniform rational basis spline (NURBS)",
   chars! "    # G05.3       - GCodeNURBSEnd: G5.3: end NURBS mode",
   chars! "    # G05.1     - GCodeQuadraticSpline: G5.1: Quadratic Spline",
   chars! "    # G00       - GCodeRapidMove: G0: Rapid Move",
   chars! "    # G33.1     - GCodeRigidTapping: G33.1: Rigid Tapping",
   chars! "    # G33       - GCodeSpindleSyncMotion: G33: Spindle Synchronized Motion",
   chars! "    #           - GCodeStraightProbe: G38.2-G38.5: Straight Probe",
   chars! "    #         - GCodeNonModal:",
   chars! "    # G92       - GCodeCoordSystemOffset: G92: Coordinate System Offset",
   chars! "    #           - GCodeGotoPredefinedPosition: G28,G30: Goto Predefined Position (rapid movement)",
   chars! "    # G53       - GCodeMoveInMachineCoords: G53: Move in Machine Coordinates",
   chars! "    #           - GCodeResetCoordSystemOffset: G92.1,G92.2: Reset Coordinate System Offset",
   chars! "    # G92.3     - GCodeRestoreCoordSystemOffset: G92.3: Restore Coordinate System Offset",
   chars! "    # G10       - GCodeSet: G10: Set stuff",
   chars! "    #           - GCodeSetPredefinedPosition: G28.1,G30.1: Set Predefined Position",
   chars! "    # M06       - GCodeToolChange: M6: Tool Change",
   chars! "    # M61       - GCodeToolSetCurrent: M61: Set Current Tool",
   chars! "    #           - GCodeUserDefined: M101-M199: User Defined Commands",
   chars! "    #         - GCodeOtherModal:",
   chars! "    # M52       - GCodeAdaptiveFeed: M52: Adaptive Feed Control",
   chars! "    # M50       - GCodeFeedOverride: M50: Feed Override Control",
   chars! "    #           - GCodeFeedRate: F: Set Feed Rate",
   chars! "    # M53       - GCodeFeedStop: M53: Feed Stop Control",
   chars! "    #           - GCodeSelectCoordinateSystem: Select Coordinate System",
   chars! "    # G54         - GCodeSelectCoordinateSystem1: Select Coordinate System 1",
   chars! "    # G55         - GCodeSelectCoordinateSystem2: Select Coordinate System 2",
   chars! "    # G56         - GCodeSelectCoordinateSystem3: Select Coordinate System 3",
   chars! "    # G57         - GCodeSelectCoordinateSystem4: Select Coordinate System 4",
   chars! "    # G58         - GCodeSelectCoordinateSystem5: Select Coordinate System 5",
   chars! "    # G59         - GCodeSelectCoordinateSystem6: Select Coordinate System 6",
   chars! "    # G59.1       - GCodeSelectCoordinateSystem7: Select Coordinate System 7",
   chars! "    # G59.2       - GCodeSelectCoordinateSystem8: Select Coordinate System 8",
   chars! "    # G59.3       - GCodeSelectCoordinateSystem9: Select Coordinate System 9",
   chars! "    #           - GCodeSelectTool: T: Select Tool",
   chars! "    # M49       - GCodeSpeedAndFeedOverrideOff: M49: Speed and Feed Override Control Off",
   chars! "    # M48       - GCodeSpeedAndFeedOverrideOn: M48: Speed and Feed Override Control On",
   chars! "    #           - GCodeSpindleSpeed: S: Set Spindle Speed",
   chars! "    # M51       - GCodeSpindleSpeedOverride: M51: Spindle Speed Override Control",
   chars! "    #         - GCodePathControlMode:",
   chars! "    # G61       - GCodeExactPathMode: G61: Exact path mode",
   chars! "    # G61.1     - GCodeExactStopMode: G61.1: Exact stop mode",
   chars! "    # G64       - GCodePathBlendingMode: G64: Path Blending",
   chars! "    #         - GCodePlaneSelect:",
   chars! "    # G17.1     - GCodeSelectUVPlane: G17.1: select UV plane",
   chars! "    # G19.1     - GCodeSelectVWPlane: G19.1: select VW plane",
   chars! "    # G18.1     - GCodeSelectWUPlane: G18.1: select WU plane",
   chars! "    # G17       - GCodeSelectXYPlane: G17: select XY plane (default)",
   chars! "    # G19       - GCodeSelectYZPlane: G19: select YZ plane",
   chars! "    # G18       - GCodeSelectZXPlane: G18: select ZX plane",
   chars! "    #         - GCodeProgramControl:",
   chars! "    # M02       - GCodeEndProgram: M2: Program End",
   chars! "    # M30       - GCodeEndProgramPalletShuttle: M30: exchange pallet shuttles and end the program",
   chars! "    # M60       - GCodePalletChangePause: M60: Pallet Change Pause",
   chars! "    # M00       - GCodePauseProgram: M0: Program Pause",
   chars! "    # M01       - GCodePauseProgramOptional: M1: Program Pause (optional)",
   chars! "    #         - GCodeSpindle:",
   chars! "    # M19       - GCodeOrientSpindle: M19: Orient Spindle",
   chars! "    #           - GCodeSpindleSpeedMode:",
   chars! "    # G96         - GCodeSpindleConstantSurfaceSpeedMode: G96: Spindle Constant Surface Speed",
   chars! "    # G97         - GCodeSpindleRPMMode: G97: Spindle RPM Speed",
   chars! "    #           - GCodeStartSpindle: M3,M4: Start Spindle Clockwise",
   chars! "    # M04         - GCodeStartSpindleCCW: M4: Start Spindle Counter-Clockwise",
   chars! "    # M03         - GCodeStartSpindleCW: M3: Start Spindle Clockwise",
   chars! "    # M05       - GCodeStopSpindle: M5: Stop Spindle",
   chars! "    #         - GCodeToolLength:",
   chars! "    # G43.2     - GCodeAddToolLengthOffset: G43.2: Appkly Additional Tool Length Offset",
   chars! "    # G49       - GCodeCancelToolLengthOffset: G49: Cancel Tool Length Compensation",
   chars! "    # G43.1     - GCodeDynamicToolLengthOffset: G43.1: Dynamic Tool Length Offset",
   chars! "    # G43       - GCodeToolLengthOffset: G43: Tool Length Offset",
   chars! "    #         - GCodeUnit:",
   chars! "    # G20       - GCodeUseInches: G20: use inches for length units",
   chars! "    # G21       - GCodeUseMillimeters: G21: use millimeters for length units"]

set_option maxRecDepth 10000 in
/-- `__all__` (__init__.py). -/
def exported : List (List Char) :=
  [chars! "Machine",
   chars! "State",
   chars! "Mode",
   chars! "NullMachine",
   chars! "NullState",
   chars! "NullMode",
   chars! "Position",
   chars! "CoordinateSystem",
   chars! "Line",
   chars! "Block",
   chars! "Comment",
   chars! "split_line",
   chars! "Word",
   chars! "text2words",
   chars! "str2word",
   chars! "words2dict",
   chars! "words2gcodes",
   chars! "text2gcodes",
   chars! "split_gcodes",
   chars! "GCode",
   chars! "GCodeAbsoluteArcDistanceMode",
   chars! "GCodeAbsoluteDistanceMode",
   chars! "GCodeAdaptiveFeed",
   chars! "GCodeAddToolLengthOffset",
   chars! "GCodeAnalogOutput",
   chars! "GCodeAnalogOutputImmediate",
   chars! "GCodeAnalogOutputSyncd",
   chars! "GCodeArcMove",
   chars! "GCodeArcMoveCCW",
   chars! "GCodeArcMoveCW",
   chars! "GCodeBoringCycleDwellFeedOut",
   chars! "GCodeBoringCycleFeedOut",
   chars! "GCodeCancelCannedCycle",
   chars! "GCodeCancelToolLengthOffset",
   chars! "GCodeCannedCycle",
   chars! "GCodeCannedCycleReturnPrevLevel",
   chars! "GCodeCannedCycleReturnToR",
   chars! "GCodeCannedReturnMode",
   chars! "GCodeCoolant",
   chars! "GCodeCoolantFloodOn",
   chars! "GCodeCoolantMistOn",
   chars! "GCodeCoolantOff",
   chars! "GCodeCoordSystemOffset",
   chars! "GCodeCublcSpline",
   chars! "GCodeCutterCompLeft",
   chars! "GCodeCutterCompRight",
   chars! "GCodeCutterRadiusComp",
   chars! "GCodeCutterRadiusCompOff",
   chars! "GCodeDefinition",
   chars! "GCodeDigitalOutput",
   chars! "GCodeDigitalOutputOff",
   chars! "GCodeDigitalOutputOffSyncd",
   chars! "GCodeDigitalOutputOn",
   chars! "GCodeDigitalOutputOnSyncd",
   chars! "GCodeDistanceMode",
   chars! "GCodeDrillingCycle",
   chars! "GCodeDrillingCycleChipBreaking",
   chars! "GCodeDrillingCycleDwell",
   chars! "GCodeDrillingCyclePeck",
   chars! "GCodeDwell",
   chars! "GCodeDynamicCutterCompLeft",
   chars! "GCodeDynamicCutterCompRight",
   chars! "GCodeDynamicToolLengthOffset",
   chars! "GCodeEndProgram",
   chars! "GCodeEndProgramPalletShuttle",
   chars! "GCodeExactPathMode",
   chars! "GCodeExactStopMode",
   chars! "GCodeFeedOverride",
   chars! "GCodeFeedRate",
   chars! "GCodeFeedRateMode",
   chars! "GCodeFeedStop",
   chars! "GCodeGotoPredefinedPosition",
   chars! "GCodeIO",
   chars! "GCodeIncrementalArcDistanceMode",
   chars! "GCodeIncrementalDistanceMode",
   chars! "GCodeInverseTimeMode",
   chars! "GCodeLatheDiameterMode",
   chars! "GCodeLatheRadiusMode",
   chars! "GCodeLineNumber",
   chars! "GCodeLinearMove",
   chars! "GCodeMotion",
   chars! "GCodeMoveInMachineCoords",
   chars! "GCodeNURBS",
   chars! "GCodeNURBSEnd",
   chars! "GCodeNonModal",
   chars! "GCodeOrientSpindle",
   chars! "GCodeOtherModal",
   chars! "GCodePalletChangePause",
   chars! "GCodePathBlendingMode",
   chars! "GCodePathControlMode",
   chars! "GCodePauseProgram",
   chars! "GCodePauseProgramOptional",
   chars! "GCodePlaneSelect",
   chars! "GCodeProgramControl",
   chars! "GCodeProgramName",
   chars! "GCodeQuadraticSpline",
   chars! "GCodeRapidMove",
   chars! "GCodeResetCoordSystemOffset",
   chars! "GCodeRestoreCoordSystemOffset",
   chars! "GCodeRigidTapping",
   chars! "GCodeSelectCoordinateSystem",
   chars! "GCodeSelectCoordinateSystem1",
   chars! "GCodeSelectCoordinateSystem2",
   chars! "GCodeSelectCoordinateSystem3",
   chars! "GCodeSelectCoordinateSystem4",
   chars! "GCodeSelectCoordinateSystem5",
   chars! "GCodeSelectCoordinateSystem6",
   chars! "GCodeSelectCoordinateSystem7",
   chars! "GCodeSelectCoordinateSystem8",
   chars! "GCodeSelectCoordinateSystem9",
   chars! "GCodeSelectTool",
   chars! "GCodeSelectUVPlane",
   chars! "GCodeSelectVWPlane",
   chars! "GCodeSelectWUPlane",
   chars! "GCodeSelectXYPlane",
   chars! "GCodeSelectYZPlane",
   chars! "GCodeSelectZXPlane",
   chars! "GCodeSet",
   chars! "GCodeSetPredefinedPosition",
   chars! "GCodeSpeedAndFeedOverrideOff",
   chars! "GCodeSpeedAndFeedOverrideOn",
   chars! "GCodeSpindle",
   chars! "GCodeSpindleConstantSurfaceSpeedMode",
   chars! "GCodeSpindleRPMMode",
   chars! "GCodeSpindleSpeed",
   chars! "GCodeSpindleSpeedMode",
   chars! "GCodeSpindleSpeedOverride",
   chars! "GCodeSpindleSyncMotion",
   chars! "GCodeStartSpindle",
   chars! "GCodeStartSpindleCCW",
   chars! "GCodeStartSpindleCW",
   chars! "GCodeStopSpindle",
   chars! "GCodeStraightProbe",
   chars! "GCodeThreadingCycle",
   chars! "GCodeToolChange",
   chars! "GCodeToolLength",
   chars! "GCodeToolLengthOffset",
   chars! "GCodeToolSetCurrent",
   chars! "GCodeUnit",
   chars! "GCodeUnitsPerMinuteMode",
   chars! "GCodeUnitsPerRevolution",
   chars! "GCodeUseInches",
   chars! "GCodeUseMillimeters",
   chars! "GCodeUserDefined",
   chars! "GCodeWaitOnInput"]

set_option maxRecDepth 10000 in
/-- The names in the import statements of __init__.py. -/
def imported : List (List Char) :=
  [chars! "Position",
   chars! "CoordinateSystem",
   chars! "Machine",
   chars! "State",
   chars! "Mode",
   chars! "NullMachine",
   chars! "NullState",
   chars! "NullMode",
   chars! "Line",
   chars! "Block",
   chars! "Comment",
   chars! "split_line",
   chars! "Word",
   chars! "text2words",
   chars! "str2word",
   chars! "words2dict",
   chars! "words2gcodes",
   chars! "text2gcodes",
   chars! "split_gcodes",
   chars! "GCode",
   chars! "GCodeAbsoluteArcDistanceMode",
   chars! "GCodeAbsoluteDistanceMode",
   chars! "GCodeAdaptiveFeed",
   chars! "GCodeAddToolLengthOffset",
   chars! "GCodeAnalogOutput",
   chars! "GCodeAnalogOutputImmediate",
   chars! "GCodeAnalogOutputSyncd",
   chars! "GCodeArcMove",
   chars! "GCodeArcMoveCCW",
   chars! "GCodeArcMoveCW",
   chars! "GCodeBoringCycleDwellFeedOut",
   chars! "GCodeBoringCycleFeedOut",
   chars! "GCodeCancelCannedCycle",
   chars! "GCodeCancelToolLengthOffset",
   chars! "GCodeCannedCycle",
   chars! "GCodeCannedCycleReturnPrevLevel",
   chars! "GCodeCannedCycleReturnToR",
   chars! "GCodeCannedReturnMode",
   chars! "GCodeCoolant",
   chars! "GCodeCoolantFloodOn",
   chars! "GCodeCoolantMistOn",
   chars! "GCodeCoolantOff",
   chars! "GCodeCoordSystemOffset",
   chars! "GCodeCublcSpline",
   chars! "GCodeCutterCompLeft",
   chars! "GCodeCutterCompRight",
   chars! "GCodeCutterRadiusComp",
   chars! "GCodeCutterRadiusCompOff",
   chars! "GCodeDefinition",
   chars! "GCodeDigitalOutput",
   chars! "GCodeDigitalOutputOff",
   chars! "GCodeDigitalOutputOffSyncd",
   chars! "GCodeDigitalOutputOn",
   chars! "GCodeDigitalOutputOnSyncd",
   chars! "GCodeDistanceMode",
   chars! "GCodeDrillingCycle",
   chars! "GCodeDrillingCycleChipBreaking",
   chars! "GCodeDrillingCycleDwell",
   chars! "GCodeDrillingCyclePeck",
   chars! "GCodeDwell",
   chars! "GCodeDynamicCutterCompLeft",
   chars! "GCodeDynamicCutterCompRight",
   chars! "GCodeDynamicToolLengthOffset",
   chars! "GCodeEndProgram",
   chars! "GCodeEndProgramPalletShuttle",
   chars! "GCodeExactPathMode",
   chars! "GCodeExactStopMode",
   chars! "GCodeFeedOverride",
   chars! "GCodeFeedRate",
   chars! "GCodeFeedRateMode",
   chars! "GCodeFeedStop",
   chars! "GCodeGotoPredefinedPosition",
   chars! "GCodeIO",
   chars! "GCodeIncrementalArcDistanceMode",
   chars! "GCodeIncrementalDistanceMode",
   chars! "GCodeInverseTimeMode",
   chars! "GCodeLatheDiameterMode",
   chars! "GCodeLatheRadiusMode",
   chars! "GCodeLineNumber",
   chars! "GCodeLinearMove",
   chars! "GCodeMotion",
   chars! "GCodeMoveInMachineCoords",
   chars! "GCodeNURBS",
   chars! "GCodeNURBSEnd",
   chars! "GCodeNonModal",
   chars! "GCodeOrientSpindle",
   chars! "GCodeOtherModal",
   chars! "GCodePalletChangePause",
   chars! "GCodePathBlendingMode",
   chars! "GCodePathControlMode",
   chars! "GCodePauseProgram",
   chars! "GCodePauseProgramOptional",
   chars! "GCodePlaneSelect",
   chars! "GCodeProgramControl",
   chars! "GCodeProgramName",
   chars! "GCodeQuadraticSpline",
   chars! "GCodeRapidMove",
   chars! "GCodeResetCoordSystemOffset",
   chars! "GCodeRestoreCoordSystemOffset",
   chars! "GCodeRigidTapping",
   chars! "GCodeSelectCoordinateSystem",
   chars! "GCodeSelectCoordinateSystem1",
   chars! "GCodeSelectCoordinateSystem2",
   chars! "GCodeSelectCoordinateSystem3",
   chars! "GCodeSelectCoordinateSystem4",
   chars! "GCodeSelectCoordinateSystem5",
   chars! "GCodeSelectCoordinateSystem6",
   chars! "GCodeSelectCoordinateSystem7",
   chars! "GCodeSelectCoordinateSystem8",
   chars! "GCodeSelectCoordinateSystem9",
   chars! "GCodeSelectTool",
   chars! "GCodeSelectUVPlane",
   chars! "GCodeSelectVWPlane",
   chars! "GCodeSelectWUPlane",
   chars! "GCodeSelectXYPlane",
   chars! "GCodeSelectYZPlane",
   chars! "GCodeSelectZXPlane",
   chars! "GCodeSet",
   chars! "GCodeSetPredefinedPosition",
   chars! "GCodeSpeedAndFeedOverrideOff",
   chars! "GCodeSpeedAndFeedOverrideOn",
   chars! "GCodeSpindle",
   chars! "GCodeSpindleConstantSurfaceSpeedMode",
   chars! "GCodeSpindleRPMMode",
   chars! "GCodeSpindleSpeed",
   chars! "GCodeSpindleSpeedMode",
   chars! "GCodeSpindleSpeedOverride",
   chars! "GCodeSpindleSyncMotion",
   chars! "GCodeStartSpindle",
   chars! "GCodeStartSpindleCCW",
   chars! "GCodeStartSpindleCW",
   chars! "GCodeStopSpindle",
   chars! "GCodeStraightProbe",
   chars! "GCodeThreadingCycle",
   chars! "GCodeToolChange",
   chars! "GCodeToolLength",
   chars! "GCodeToolLengthOffset",
   chars! "GCodeToolSetCurrent",
   chars! "GCodeUnit",
   chars! "GCodeUnitsPerMinuteMode",
   chars! "GCodeUnitsPerRevolution",
   chars! "GCodeUseInches",
   chars! "GCodeUseMillimeters",
   chars! "GCodeUserDefined",
   chars! "GCodeWaitOnInput"]

end Listings

end Pygcode
