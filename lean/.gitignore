.lake/

lake-manifest.json
