.lake/
lean/.lake/
